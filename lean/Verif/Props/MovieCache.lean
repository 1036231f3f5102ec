import Verif.Common
import Verif.Model.MovieCache

set_option autoImplicit false
set_option linter.unusedSectionVars false

/-! C252: movies drawn from cached frames. -/

namespace Nubhlight.MovieCache

variable {S D : Type}

/-- A directory that shows these dumps with these settings, and nothing else. -/
def Shows (s : S) (dumps : List D) (dir : Dir S D) : Prop :=
  ∀ i, dir i = (dumps[i]?).map (Pic.whole s)

/-- Frames that are there are whole, of the settings, and of the dump of their number. -/
def Good (s : S) (dumps : List D) (dir : Dir S D) : Prop :=
  ∀ i p, dir i = some p → ∃ d, dumps[i]? = some d ∧ p = .whole s d

/-- Runs of one history: the same settings, dumps that are only added at the end, and no
frame that is being written when a run ends. -/
inductive Steady (s : S) : List D → List (Run S D) → Prop where
  | nil (dumps : List D) : Steady s dumps []
  | cons (dumps : List D) (r : Run S D) (l : List (Run S D)) :
      r.settings = s → dumps <+: r.dumps → (∀ i, r.fate i ≠ .writing) →
      Steady s r.dumps l → Steady s dumps (r :: l)

theorem prefix_get {a b : List D} (h : a <+: b) {i : ℕ} {d : D} (hi : a[i]? = some d) :
    b[i]? = some d := by
  obtain ⟨c, rfl⟩ := h
  have : i < a.length := by
    by_contra hc
    rw [List.getElem?_eq_none (not_lt.1 hc)] at hi
    cases hi
  rw [List.getElem?_append_left this]
  exact hi

theorem good_mono {s : S} {a b : List D} (h : a <+: b) {dir : Dir S D} (hg : Good s a dir) :
    Good s b dir := by
  intro i p hp
  obtain ⟨d, hd, e⟩ := hg i p hp
  exact ⟨d, prefix_get h hd, e⟩

theorem good_draw {r : Run S D} {dir : Dir S D} (hw : ∀ i, r.fate i ≠ .writing)
    (hg : Good r.settings r.dumps dir) : Good r.settings r.dumps (draw r dir) := by
  intro i p hp
  rw [draw] at hp
  cases hd : dir i with
  | some q =>
    rw [hd] at hp
    cases hp
    exact hg i p hd
  | none =>
    rw [hd] at hp
    cases hl : r.dumps[i]? with
    | none => rw [hl] at hp; cases hp
    | some d =>
      rw [hl] at hp
      simp only [makeFrame] at hp
      cases hf : r.fate i with
      | waiting => rw [hf] at hp; cases hp
      | writing => exact absurd hf (hw i)
      | finished =>
        rw [hf] at hp
        cases hp
        exact ⟨d, rfl, rfl⟩

theorem good_history {s : S} : ∀ (l : List (Run S D)) (dumps : List D) (dir : Dir S D),
    Steady s dumps l → Good s dumps dir →
    Good s ((l.getLast?.map Run.dumps).getD dumps) (history dir l) := by
  intro l
  induction l with
  | nil => intro dumps dir _ hg; exact hg
  | cons r l ih =>
    intro dumps dir hs hg
    cases hs with
    | cons _ _ _ h1 h2 h3 h4 =>
      have hg' : Good s r.dumps (cached dir r) := by
        rw [cached]
        split
        · intro i p hp; cases hp
        · subst h1
          exact good_draw h3 (good_mono h2 hg)
      have := ih r.dumps (cached dir r) h4 hg'
      rw [history, List.foldl_cons]
      cases l with
      | nil => exact this
      | cons q l =>
        rw [List.getLast?_cons_cons]
        rw [List.getLast?_cons] at this ⊢
        exact this

theorem steady_split {s : S} : ∀ (l : List (Run S D)) (dumps : List D) (r : Run S D),
    Steady s dumps (l ++ [r]) → Steady s dumps l ∧ r.settings = s ∧
      ((l.getLast?.map Run.dumps).getD dumps) <+: r.dumps ∧ ∀ i, r.fate i ≠ .writing := by
  intro l
  induction l with
  | nil =>
    intro dumps r h
    cases h with
    | cons _ _ _ h1 h2 h3 h4 => exact ⟨.nil _, h1, h2, h3⟩
  | cons q l ih =>
    intro dumps r h
    cases h with
    | cons _ _ _ h1 h2 h3 h4 =>
      obtain ⟨g1, g2, g3, g4⟩ := ih q.dumps r h4
      refine ⟨.cons _ _ _ h1 h2 h3 g1, g2, ?_, g4⟩
      cases l with
      | nil => exact g3
      | cons a l =>
        rw [List.getLast?_cons_cons]
        rw [List.getLast?_cons] at g3 ⊢
        exact g3

/-- After any history of runs that were interrupted or not, in any order of frames, with the
same settings, dumps added only at the end and no frame cut off, a run that comes to its end
has exactly one frame for each dump, drawn from that dump with the settings. -/
theorem C252_movie_partial {s : S} {l : List (Run S D)} {r : Run S D}
    (hs : Steady s [] (l ++ [r])) (hc : complete r (history (fun _ => none) l) = true) :
    Shows s r.dumps (draw r (history (fun _ => none) l)) := by
  obtain ⟨h1, h2, h3, h4⟩ := steady_split l [] r hs
  have hg := good_history l [] (fun _ => none) h1 (by intro i p hp; cases hp)
  have hg' := good_mono h3 hg
  subst h2
  have hd := good_draw h4 hg'
  intro i
  cases hl : r.dumps[i]? with
  | none =>
    cases hp : draw r (history (fun _ => none) l) i with
    | none => rfl
    | some p =>
      obtain ⟨d, hd', -⟩ := hd i p hp
      rw [hl] at hd'
      cases hd'
  | some d =>
    have hi : i < r.dumps.length := by
      by_contra hcc
      rw [List.getElem?_eq_none (not_lt.1 hcc)] at hl
      cases hl
    have hci := List.all_eq_true.1 hc i (List.mem_range.2 hi)
    have hsome : ∃ p, draw r (history (fun _ => none) l) i = some p := by
      rw [draw]
      cases hh : history (fun _ => none) l i with
      | some p => exact ⟨p, rfl⟩
      | none =>
        rw [hh] at hci
        have hf : r.fate i = .finished := by simpa using hci
        rw [hl]
        simp only [makeFrame, hf]
        exact ⟨_, rfl⟩
    obtain ⟨p, hp⟩ := hsome
    obtain ⟨d', hd', e⟩ := hd i p hp
    rw [hl] at hd'
    cases hd'
    rw [hp, e]
    rfl

/-- A file that is there is not drawn again, by any runs that do not remove the frames,
whatever their settings and dumps. -/
theorem C252_not_again {l : List (Run S D)} {dir : Dir S D} {i : ℕ} {p : Pic S D}
    (hl : ∀ r ∈ l, r.removes = false) (hp : dir i = some p) : history dir l i = some p := by
  induction l generalizing dir with
  | nil => exact hp
  | cons r l ih =>
    rw [history, List.foldl_cons]
    refine ih (fun q hq => hl q (by simp [hq])) ?_
    rw [cached, hl r (by simp)]
    simp [draw, hp]

/-- A run that is cut off keeps the frames that were there, and those it finished. -/
theorem C252_cut_off {dir : Dir S D} {r : Run S D} (hc : complete r dir = false) (i : ℕ) :
    (∀ p, dir i = some p → cached dir r i = some p) ∧
    (∀ d, dir i = none → r.dumps[i]? = some d → r.fate i = .finished →
      cached dir r i = some (.whole r.settings d)) := by
  have e : cached dir r = draw r dir := by rw [cached, hc]; simp
  rw [e]
  constructor
  · intro p hp; simp [draw, hp]
  · intro d h1 h2 h3; simp [draw, h1, h2, makeFrame, h3]

/-- Without a cache a run that comes to its end shows its dumps with its settings, whatever
was there before. -/
theorem C252_fresh (dir : Dir S D) (r : Run S D)
    (hc : ∀ i, i < r.dumps.length → r.fate i = .finished) :
    Shows r.settings r.dumps (uncached dir r) := by
  intro i
  rw [uncached, draw]
  cases hl : r.dumps[i]? with
  | none => rfl
  | some d =>
    have hi : i < r.dumps.length := by
      by_contra hcc
      rw [List.getElem?_eq_none (not_lt.1 hcc)] at hl
      cases hl
    simp only [makeFrame, hc i hi]
    rfl

/-- With an encoder and a relative path, the cache is empty after a run that comes to its
end, so the next draws all frames again. -/
theorem C252_cache_lost {dir : Dir S D} {r q : Run S D} (hr : r.removes = true)
    (hc : complete r dir = true) (hq : ∀ i, i < q.dumps.length → q.fate i = .finished) :
    Shows q.settings q.dumps (draw q (cached dir r)) := by
  have e : cached dir r = fun _ => none := by rw [cached, hr, hc]; rfl
  rw [e]
  exact C252_fresh (fun _ => none) q hq

/-- A frame cut off stays cut off in every later run, and no run tries to draw it. -/
theorem C252_broken_stays {dir : Dir S D} {i : ℕ} (hb : dir i = some .broken)
    (r : Run S D) (s : S) : draw r dir i = some .broken ∧ ¬ Shows s r.dumps (draw r dir) := by
  have e : draw r dir i = some .broken := by simp [draw, hb]
  refine ⟨e, fun h => ?_⟩
  have := h i
  rw [e] at this
  cases hl : r.dumps[i]? with
  | none => rw [hl] at this; cases this
  | some d => rw [hl] at this; cases this

/-- Frames of other settings stay as well. -/
theorem C252_settings_stay {dir : Dir S D} {i : ℕ} {s : S} {d : D}
    (hb : dir i = some (.whole s d)) (r : Run S D) (hs : r.settings ≠ s) :
    ¬ Shows r.settings r.dumps (draw r dir) := by
  intro h
  have e : draw r dir i = some (.whole s d) := by simp [draw, hb]
  have := h i
  rw [e] at this
  cases hl : r.dumps[i]? with
  | none => rw [hl] at this; cases this
  | some d' =>
    rw [hl] at this
    cases this
    exact hs rfl

/-- The property as registered. -/
def FullC252 : Prop :=
  ∀ (S D : Type) (l : List (Run S D)) (r : Run S D),
    complete r (history (fun _ => none) l) = true →
    Shows r.settings r.dumps (draw r (history (fun _ => none) l))

theorem C252_full_false : ¬ FullC252 := by
  intro h
  let a : Run Bool ℕ := { settings := true, dumps := [7], removes := true, fate := fun _ => .writing }
  let b : Run Bool ℕ := { settings := true, dumps := [7], removes := true, fate := fun _ => .finished }
  have hb : history (fun _ => none) [a] 0 = some (Pic.broken (S := Bool) (D := ℕ)) := rfl
  exact (C252_broken_stays hb b true).2 (h Bool ℕ [a] b rfl)

/-- Changed settings are enough, with no frame cut off. -/
theorem C252_full_false_settings : ∃ (l : List (Run Bool ℕ)) (r : Run Bool ℕ),
    (∀ q ∈ l, ∀ i, q.fate i ≠ .writing) ∧ complete r (history (fun _ => none) l) = true ∧
    ¬ Shows r.settings r.dumps (draw r (history (fun _ => none) l)) := by
  let a : Run Bool ℕ :=
    { settings := true, dumps := [7, 8], removes := true,
      fate := fun i => if i = 0 then .finished else .waiting }
  let b : Run Bool ℕ :=
    { settings := false, dumps := [7, 8], removes := true, fate := fun _ => .finished }
  refine ⟨[a], b, ?_, rfl, ?_⟩
  · intro q hq i
    rw [List.mem_singleton.1 hq]
    change (if i = 0 then Fate.finished else .waiting) ≠ .writing
    split <;> simp
  · have hb : history (fun _ => none) [a] 0 = some (Pic.whole true 7) := rfl
    exact C252_settings_stay hb b (by simp [b])

/-- A history that is steady: one frame of two done, then a third dump and the end. -/
example : ∃ (a b : Run Bool ℕ), Steady true [] ([a] ++ [b]) ∧
    complete b (history (fun _ => none) [a]) = true ∧
    history (fun _ => none) [a] 0 = some (.whole true 7) ∧
    history (fun _ => none) [a] 1 = none := by
  refine ⟨⟨true, [7, 8], true, fun i => if i = 0 then .finished else .waiting⟩,
    ⟨true, [7, 8, 9], true, fun _ => .finished⟩, ?_, rfl, rfl, rfl⟩
  refine .cons _ _ _ rfl (List.nil_prefix) ?_ (.cons _ _ _ rfl ⟨[9], rfl⟩ ?_ (.nil _))
  · intro i
    change (if i = 0 then Fate.finished else .waiting) ≠ .writing
    split <;> simp
  · intro i; simp

end Nubhlight.MovieCache
