import Verif.Common
import Verif.Model.History

set_option autoImplicit false

/-!
# C99: the stored history of a packet brackets the time
-/

set_option linter.unusedSectionVars false

namespace Nubhlight.History

variable {K : Type*} [Field K] [LinearOrder K] [IsStrictOrderedRing K]

/-- What is needed of a packet at time `t`: its newest state is not before `t`, and it is at `t` or the state before it is not after `t`. -/
def Good (t : K) (h : Hist K) : Prop := t ≤ h.T2 ∧ (h.T2 = t ∨ ∃ a, h.T1 = some a ∧ a ≤ t)

theorem look_of_good {t : K} {h : Hist K} (g : Good t h) : look h t = .ok := by
  obtain ⟨g1, g2⟩ := g
  unfold look
  by_cases e : t = h.T2
  · rw [if_pos e]
  · rw [if_neg e]
    rcases g2 with g2 | ⟨a, ha, hat⟩
    · exact absurd g2.symm e
    · rw [ha]
      simp only
      rw [if_neg (not_lt.2 hat), if_pos g1]

/-- After the push, for times of the step. -/
def Covers (t dt : K) (h : Hist K) : Prop :=
  t + dt ≤ h.T2 ∧ ∃ a, h.T1 = some a ∧ a < t + dt ∧ (a ≤ t ∨ ∃ b, h.T0 = some b ∧ b ≤ t)

theorem covers_push {t dt l : K} {h : Hist K} (hdt : 0 < dt) (g : Good t h) (ht : h.tracer = true → h.T2 = t) :
    Covers t dt (push t dt l h) := by
  obtain ⟨g1, g2⟩ := g
  unfold push
  by_cases hp : toBePushed t dt h = true
  · rw [if_pos hp]
    have hd : dt ≤ dtPush l dt h := by
      unfold dtPush
      split_ifs
      · exact le_rfl
      · exact le_max_right _ _
    have hlt : h.T2 < t + dt := by
      unfold toBePushed at hp
      rw [Bool.or_eq_true, decide_eq_true_eq] at hp
      rcases hp with hp | hp
      · rw [ht hp]; linarith
      · exact hp
    refine ⟨?_, h.T2, rfl, hlt, ?_⟩
    · simp only [shift]; linarith
    · rcases g2 with g2 | ⟨a, ha, hat⟩
      · exact Or.inl g2.le
      · exact Or.inr ⟨a, ha, hat⟩
  · rw [if_neg hp]
    unfold toBePushed at hp
    rw [Bool.or_eq_true, decide_eq_true_eq, not_or, not_lt] at hp
    rcases g2 with g2 | ⟨a, ha, hat⟩
    · exfalso; linarith [hp.2]
    · exact ⟨hp.2, a, ha, by linarith, Or.inl hat⟩

theorem look_of_covers {t dt s : K} {h : Hist K} (c : Covers t dt h) (h1 : t ≤ s) (h2 : s ≤ t + dt) : look h s = .ok := by
  obtain ⟨c1, a, ha, hlt, c2⟩ := c
  unfold look
  by_cases e : s = h.T2
  · rw [if_pos e]
  · rw [if_neg e, ha]
    simp only
    by_cases hs : s < a
    · rw [if_pos hs]
      rcases c2 with c2 | ⟨b, hb, hbt⟩
      · exact absurd hs (not_lt.2 (c2.trans h1))
      · rw [hb]
        simp only
        rw [if_pos (hbt.trans h1)]
    · rw [if_neg hs, if_pos (h2.trans c1)]

/-- Tracers are always pushed by exactly the step. -/
def TracerNow (t : K) (h : Hist K) : Prop := h.tracer = true → h.T2 = t

theorem tracer_push {t dt l : K} {h : Hist K} (g : TracerNow t h) : TracerNow (t + dt) (push t dt l h) := by
  intro ht
  unfold push at ht ⊢
  by_cases hp : toBePushed t dt h = true
  · rw [if_pos hp] at ht ⊢
    have ht' : h.tracer = true := ht
    simp only [shift, dtPush, ht', if_true, g ht']
  · rw [if_neg hp] at ht
    simp [toBePushed, ht] at hp

/-- Inputs as the code produces them: the step is positive, scatterings happen in the step (`C48_inner_partial`) and the push length of a
scattered packet, the light-crossing time of its zone times the Courant number, is not less than the step. The last is true when the step
was set by core/step.c:136; it can fail for the first step, set by the user, and after core/step.c:167. -/
def Valid (t : K) (i : In K) : Prop := 0 < i.dt ∧ ∀ n, ∀ p ∈ i.scat n, t ≤ p.1 ∧ p.1 ≤ t + i.dt ∧ i.dt ≤ p.2

theorem mem_pushed {t : K} {i : In K} {l : List (Hist K)} {h : Hist K} (hh : h ∈ pushed t i l) :
    ∃ n h0, (h0 = made t ∨ h0 ∈ l) ∧ h = push t i.dt (i.len n) h0 := by
  unfold pushed at hh
  obtain ⟨n, hn, rfl⟩ := List.mem_mapIdx.1 hh
  refine ⟨n, _, ?_, rfl⟩
  rcases List.mem_append.1 (List.getElem_mem hn) with h | h
  · exact Or.inl (List.eq_of_mem_replicate h)
  · exact Or.inr h

theorem good_made (t : K) : Good t (made t) := ⟨le_rfl, Or.inl rfl⟩

/-- **C99 (during a step).** From any state in which every history is good, after the push every packet (new ones included) can be placed
at every time of the step by interpolation between two of its states around that time. -/
theorem C99_during (t : K) (l : List (Hist K)) (i : In K) (hv : 0 < i.dt) (hg : ∀ h ∈ l, Good t h ∧ TracerNow t h) (h : Hist K)
    (hh : h ∈ pushed t i l) (s : K) (h1 : t ≤ s) (h2 : s ≤ t + i.dt) : look h s = .ok := by
  obtain ⟨n, h0, h0l, rfl⟩ := mem_pushed hh
  refine look_of_covers (t := t) (dt := i.dt) (covers_push hv ?_ ?_) h1 h2
  · rcases h0l with rfl | h0l
    · exact good_made t
    · exact (hg _ h0l).1
  · rcases h0l with rfl | h0l
    · intro h; simp [made] at h
    · exact (hg _ h0l).2

theorem good_step (t : K) (l : List (Hist K)) (i : In K) (hv : Valid t i) (hg : ∀ h ∈ l, Good t h ∧ TracerNow t h) :
    ∀ h ∈ (step t l i).2, Good (step t l i).1 h ∧ TracerNow (step t l i).1 h := by
  intro h hh
  unfold step at hh
  simp only at hh
  obtain ⟨ch, hch, hin⟩ := List.mem_flatten.1 hh
  obtain ⟨n, hn, rfl⟩ := List.mem_mapIdx.1 hch
  rcases List.mem_cons.1 hin with rfl | hs
  · obtain ⟨m, h0, h0l, e⟩ := mem_pushed (List.getElem_mem hn)
    rw [e]
    have g : Good t h0 ∧ TracerNow t h0 := by
      rcases h0l with rfl | h0l
      · exact ⟨good_made t, fun h => by simp [made] at h⟩
      · exact hg _ h0l
    obtain ⟨c1, a, ha, hlt, -⟩ := covers_push (l := i.len m) hv.1 g.1 g.2
    exact ⟨⟨c1, Or.inr ⟨a, ha, hlt.le⟩⟩, tracer_push g.2⟩
  · obtain ⟨p, hp, rfl⟩ := List.mem_map.1 hs
    obtain ⟨p1, p2, p3⟩ := hv.2 n p hp
    refine ⟨⟨?_, Or.inr ⟨p.1, rfl, p2⟩⟩, fun h => by simp [scattered, shift] at h⟩
    simp only [step, scattered, shift]
    linarith

/-- A schedule of valid steps. -/
def ValidRun : K → List (In K) → Prop
  | _, [] => True
  | t, i :: l => Valid t i ∧ ValidRun (t + i.dt) l

theorem good_run (l : List (In K)) : ∀ (s : K × List (Hist K)), ValidRun s.1 l → (∀ h ∈ s.2, Good s.1 h ∧ TracerNow s.1 h) →
    ∀ h ∈ (run s l).2, Good (run s l).1 h ∧ TracerNow (run s l).1 h := by
  induction l with
  | nil => intro s _ hg; exact hg
  | cons i l ih =>
    intro s hv hg
    exact ih _ hv.2 (good_step s.1 s.2 i hv.1 hg)

/-- **C99 (between steps; partial).** For every run that begins without packets or with tracers only, and every sequence of emissions,
push lengths and scatterings: between steps, where dumps, spectra, exchange between ranks and the radiation stress tensor ask for positions,
every packet has a state at or after the time and is placed between two of its own states. Missing: positions asked for within a step of
packets scattered in that same step (`C99_same_step`, `C99_full_false`), and steps longer than the push of a scattered packet
(`C99_short_push`). -/
theorem C99_between_partial (t : K) (l : List (Hist K)) (hl : ∀ h ∈ l, h.tracer = true ∧ h.T2 = t) (is : List (In K)) (hv : ValidRun t is)
    (h : Hist K) (hh : h ∈ (run (t, l) is).2) :
    look h (run (t, l) is).1 = .ok ∧ (run (t, l) is).1 ≤ h.T2 ∧ (∀ a, h.T1 = some a → is ≠ [] → a ≤ (run (t, l) is).1) := by
  have hg : ∀ h ∈ (t, l).2, Good (t, l).1 h ∧ TracerNow (t, l).1 h := fun h hh => ⟨⟨(hl h hh).2.ge, Or.inl (hl h hh).2⟩, fun _ => (hl h hh).2⟩
  have g := good_run is (t, l) hv hg h hh
  refine ⟨look_of_good g.1, g.1.1, fun a ha hne => ?_⟩
  clear g
  have key : ∀ (is : List (In K)) (s : K × List (Hist K)), is ≠ [] → ValidRun s.1 is → (∀ h ∈ s.2, Good s.1 h ∧ TracerNow s.1 h) →
      ∀ h ∈ (run s is).2, ∀ a, h.T1 = some a → a ≤ (run s is).1 := by
    intro is
    induction is with
    | nil => intro s h; exact absurd rfl h
    | cons i is ih =>
      intro s _ hv hg h hh a ha
      by_cases hne : is = []
      · subst hne
        simp only [run] at hh ⊢
        unfold step at hh ⊢
        simp only at hh ⊢
        obtain ⟨ch, hch, hin⟩ := List.mem_flatten.1 hh
        obtain ⟨n, hn, rfl⟩ := List.mem_mapIdx.1 hch
        rcases List.mem_cons.1 hin with rfl | hs
        · obtain ⟨m, h0, h0l, e⟩ := mem_pushed (List.getElem_mem hn)
          rw [e] at ha
          have g : Good s.1 h0 ∧ TracerNow s.1 h0 := by
            rcases h0l with rfl | h0l
            · exact ⟨good_made _, fun h => by simp [made] at h⟩
            · exact hg _ h0l
          obtain ⟨-, a', ha', hlt, -⟩ := covers_push (l := i.len m) hv.1.1 g.1 g.2
          rw [ha] at ha'
          obtain rfl := Option.some.inj ha'
          exact hlt.le
        · obtain ⟨p, hp, rfl⟩ := List.mem_map.1 hs
          obtain rfl : p.1 = a := Option.some.inj ha
          exact (hv.1.2 n p hp).2.1
      · exact ih _ hne hv.2 (good_step s.1 s.2 i hv.1 hg) h hh a ha
  exact key is (t, l) hne hv hg h hh a ha

/-- **C99 (exchange at the end of a step).** The boundary pass asks for the time at the end of the step, before the clock is advanced: all
packets, scattered ones included, can be placed. -/
theorem C99_bounds (t : K) (l : List (Hist K)) (i : In K) (hv : Valid t i) (hg : ∀ h ∈ l, Good t h ∧ TracerNow t h) (h : Hist K)
    (hh : h ∈ (step t l i).2) : look h (t + i.dt) = .ok :=
  look_of_good (good_step t l i hv hg h hh).1

/-- **C99 (tracers).** Tracers stay at the time of the run. -/
theorem C99_tracers (t : K) (l : List (Hist K)) (hl : ∀ h ∈ l, h.tracer = true ∧ h.T2 = t) (is : List (In K)) (hv : ValidRun t is)
    (h : Hist K) (hh : h ∈ (run (t, l) is).2) (ht : h.tracer = true) : h.T2 = (run (t, l) is).1 :=
  (good_run is (t, l) hv (fun h hh => ⟨⟨(hl h hh).2.ge, Or.inl (hl h hh).2⟩, fun _ => (hl h hh).2⟩) h hh).2 ht

/-- A run of two steps with an emitted packet, a tracer and a scattering. -/
def exampleRun : List (In ℚ) := [⟨1, 1, fun _ => 3 / 2, fun n => if n = 0 then [(1 / 2, 3 / 2)] else []⟩, ⟨1, 2, fun _ => 3 / 2, fun _ => []⟩]

example : ValidRun (0 : ℚ) exampleRun := by
  refine ⟨⟨by norm_num, fun n p hp => ?_⟩, ⟨by norm_num, fun n p hp => by simp at hp⟩, trivial⟩
  by_cases h : n = 0
  · simp only [h, if_true, List.mem_singleton] at hp
    subst hp
    norm_num
  · simp [h] at hp

example : (run ((0 : ℚ), [⟨none, none, 0, true⟩]) exampleRun).2.length = 5 := by decide +kernel

/-- **C99 (negation, same step).** A packet scattered at `ts` asked for a time before `ts` (the middle of the step in core/interact.c:180,
the beginning of the step in core/oscillations.c:79) is placed with a state that was never written. -/
theorem C99_same_step (ts l s : K) (hl : 0 < l) (hs : s < ts) : look (scattered ts l) s = .unset := by
  unfold look scattered shift
  simp only
  rw [if_neg (by intro h; linarith), if_pos hs]

/-- From its scattering until the end of its push it is placed correctly. -/
theorem C99_after_scattering (ts l s : K) (h1 : ts ≤ s) (h2 : s ≤ ts + l) : look (scattered ts l) s = .ok := by
  unfold look scattered shift
  simp only
  by_cases e : s = ts + l
  · rw [if_pos e]
  · rw [if_neg e, if_neg (not_lt.2 h1), if_pos h2]

/-- **C99 (negation, short push).** If the push length of a scattered packet is shorter than the rest of the step, the boundary pass at the
end of the step stops the run. -/
theorem C99_short_push (t dt ts l : K) (hl : 0 < l) (h : ts + l < t + dt) : look (scattered ts l) (t + dt) = .stop := by
  unfold look scattered shift
  simp only
  rw [if_neg (by intro h; linarith), if_neg (by intro h; linarith), if_neg (by intro h; linarith)]

/-- The full claim: in a step from a good state, with any scatterings in the step, every packet present after the interactions can be placed
at every time of the step, by interpolation. -/
def FullHistory : Prop :=
  ∀ (t : ℚ) (l : List (Hist ℚ)) (i : In ℚ), 0 < i.dt → (∀ n, ∀ p ∈ i.scat n, t ≤ p.1 ∧ p.1 ≤ t + i.dt ∧ 0 < p.2) →
    (∀ h ∈ l, Good t h ∧ TracerNow t h) → ∀ h ∈ (step t l i).2, ∀ s, t ≤ s → s ≤ t + i.dt → look h s = .ok

theorem C99_full_false : ¬ FullHistory := by
  intro h
  have := h 0 [] ⟨1, 1, fun _ => 2, fun _ => [(3 / 4, 2)]⟩ (by norm_num) (fun n p hp => by
    simp only [List.mem_singleton] at hp
    subst hp
    norm_num) (fun h hh => by simp at hh) (scattered (3 / 4) 2) (by decide +kernel) (1 / 2) (by norm_num) (by norm_num)
  rw [C99_same_step _ _ _ (by norm_num) (by norm_num)] at this
  cases this

end Nubhlight.History
