import Verif.Common
import Verif.Model.PhotonBounds
import Mathlib.Tactic.FinCases
import Mathlib.Data.Fin.VecNotation

set_option autoImplicit false

/-!
# C38: decision and periodic shift of the boundary pass

Specification: `Beyond c X t` lists the faces a particle has crossed; a particle survives when every face it has crossed is periodic.
-/

set_option linter.unusedSectionVars false

namespace Nubhlight.PhotonBounds

open PhotonList (Act)

variable {K : Type*} [Field K] [LinearOrder K] [IsStrictOrderedRing K]

/-- Past the lower face in direction `d`. -/
def PastLow (c : Dom K) (X : Fin 4 → K) (d : Fin 3) : Prop := X d.succ < c.startR d

/-- Past the upper face; tracers live on the fluid grid in the radial direction. -/
def PastHigh (c : Dom K) (X : Fin 4 → K) (tracer : Bool) (d : Fin 3) : Prop :=
  (if d = 0 ∧ tracer = true then c.stop1 else c.stopR d) < X d.succ

/-- A configuration the boundary code accepts. -/
structure Supported (c : Dom K) : Prop where
  low : ∀ d, c.bcL d = .periodic ∨ c.bcL d = .escape
  high : ∀ d, c.bcR d = .periodic ∨ c.bcR d = .escape ∨ (d = 0 ∧ c.bcR d = .camera ∧ c.minkowski = false)

/-- The particle has left through a face that is not periodic. -/
def Escaped (c : Dom K) (X : Fin 4 → K) (tracer : Bool) : Prop :=
  (∃ d, PastLow c X d ∧ c.bcL d ≠ .periodic) ∨ ∃ d, PastHigh c X tracer d ∧ c.bcR d ≠ .periodic

/-- The particle is outside the box of its rank in a direction divided between ranks. -/
def Outside (c : Dom K) (X : Fin 4 → K) : Prop := ∃ d, 1 < c.ncpu d ∧ ¬ (c.startP d ≤ X d.succ ∧ X d.succ ≤ c.stopP d)

/-- Reasons for removal. -/
def Removed (c : Dom K) (cone interpOk : Bool) (X : Fin 4 → K) (p : Ph K) : Prop :=
  cone = true ∨ interpOk = false ∨ p.w < SMALL ∨ 0 < p.Kcov 2 0 ∨ Escaped c X p.isTracer

theorem face_supported {bc : RadBC} (h : bc = .periodic ∨ bc = .escape) (b : Bool) :
    face bc b = some (!(b && bc != .periodic)) := by
  rcases h with rfl | rfl <;> cases b <;> rfl

theorem exists_fin3 {P : Fin 3 → Prop} : (∃ d, P d) ↔ P 0 ∨ P 1 ∨ P 2 := by
  constructor
  · rintro ⟨d, h⟩
    fin_cases d
    · exact .inl h
    · exact .inr (.inl h)
    · exact .inr (.inr h)
  · rintro (h | h | h)
    exacts [⟨_, h⟩, ⟨_, h⟩, ⟨_, h⟩]

theorem isActive_supported (c : Dom K) (hc : Supported c) (cone : Bool) (X : Fin 4 → K) (tracer : Bool) :
    ∃ a r, isActive c cone X tracer = some (a, r) ∧ (a = true ↔ cone = false ∧ ¬ Escaped c X tracer) ∧
      (r = true ↔ tracer = false ∧ PastHigh c X tracer 0 ∧ c.bcR 0 = .camera) := by
  have hX1R : ∀ b : Bool, ∃ r, faceX1R c.minkowski (c.bcR 0) b tracer = some (!(b && c.bcR 0 != .periodic), r) ∧
      (r = true ↔ b = true ∧ tracer = false ∧ c.bcR 0 = .camera) := by
    intro b
    rcases hc.high 0 with h | h | ⟨-, h, hm⟩
    · exact ⟨false, by cases b <;> simp [faceX1R, h], by simp [h]⟩
    · exact ⟨false, by cases b <;> simp [faceX1R, h], by simp [h]⟩
    · cases b
      · exact ⟨false, by simp [faceX1R], by simp⟩
      · exact ⟨!tracer, by simp [faceX1R, h, hm], by simp [h]⟩
  have h1 := hc.low 0
  have h3 := hc.low 1
  have h5 := hc.low 2
  have h4 : c.bcR 1 = .periodic ∨ c.bcR 1 = .escape := by
    rcases hc.high 1 with h | h | ⟨h, -⟩
    exacts [.inl h, .inr h, absurd h (by decide)]
  have h6 : c.bcR 2 = .periodic ∨ c.bcR 2 = .escape := by
    rcases hc.high 2 with h | h | ⟨h, -⟩
    exacts [.inl h, .inr h, absurd h (by decide)]
  have hb : (if tracer then decide (X 1 > c.stop1) else decide (X 1 > c.stopR 0)) = true ↔ PastHigh c X tracer 0 := by
    cases tracer <;> simp [PastHigh]
  obtain ⟨r, e, hr⟩ := hX1R (if tracer then X 1 > c.stop1 else X 1 > c.stopR 0)
  have e' : ∃ a, isActive c cone X tracer = some (a, r) ∧ a = (!cone && !(decide (X 1 < c.startR 0) && c.bcL 0 != .periodic) &&
      !((if tracer then decide (X 1 > c.stop1) else decide (X 1 > c.stopR 0)) && c.bcR 0 != .periodic) &&
      !(decide (X 2 < c.startR 1) && c.bcL 1 != .periodic) && !(decide (X 2 > c.stopR 1) && c.bcR 1 != .periodic) &&
      !(decide (X 3 < c.startR 2) && c.bcL 2 != .periodic) && !(decide (X 3 > c.stopR 2) && c.bcR 2 != .periodic)) := by
    refine ⟨_, ?_, rfl⟩
    unfold isActive
    rw [face_supported h1, face_supported h3, face_supported h4, face_supported h5, face_supported h6, e]
    rfl
  obtain ⟨a, e', rfl⟩ := e'
  refine ⟨_, r, e', ?_, ?_⟩
  · have hb' : ∀ (b : Bool), ((!b) = true) = (b = false) := by decide
    simp only [Bool.and_eq_true, Escaped, exists_fin3, not_or, not_and, hb', Bool.and_eq_false_imp, bne_eq_false_iff_eq,
      decide_eq_true_eq, ne_eq, not_not, hb, PastLow]
    have p1 : PastHigh c X tracer 1 ↔ X 2 > c.stopR 1 := by simp [PastHigh]
    have p2 : PastHigh c X tracer 2 ↔ X 3 > c.stopR 2 := by simp [PastHigh]
    rw [p1, p2]
    have s1 : X (Fin.succ 0) = X 1 := rfl
    have s2 : X (Fin.succ 1) = X 2 := rfl
    have s3 : X (Fin.succ 2) = X 3 := rfl
    rw [s1, s2, s3]
    constructor
    · rintro ⟨⟨⟨⟨⟨⟨q0, q1⟩, q2⟩, q3⟩, q4⟩, q5⟩, q6⟩
      exact ⟨q0, ⟨q1, q3, q5⟩, q2, q4, q6⟩
    · rintro ⟨q0, ⟨q1, q3, q5⟩, q2, q4, q6⟩
      exact ⟨⟨⟨⟨⟨⟨q0, q1⟩, q2⟩, q3⟩, q4⟩, q5⟩, q6⟩
  · rw [hr, hb]
    tauto

theorem leaves_iff (c : Dom K) (X : Fin 4 → K) : leaves c X = true ↔ Outside c X := by
  unfold leaves Outside
  rw [exists_fin3]
  simp only [Bool.or_eq_true, Bool.and_eq_true, decide_eq_true_eq, not_and_or, not_le]
  tauto

/-- **C38 (decision).** In a supported configuration the boundary pass never stops the program; a particle is removed exactly when it has
left through a non-periodic face, is in the excluded polar cone, has no weight or positive `K_0`, or could not be interpolated; otherwise
it is sent exactly when it is outside its rank's box in a divided direction; it is recorded exactly when it is not a tracer and has
crossed an upper radial face with a camera. -/
theorem C38_decision (c : Dom K) (hc : Supported c) (cone interpOk : Bool) (X : Fin 4 → K) (p : Ph K) :
    ∃ act rec q, fate c cone interpOk X p = some (act, rec, q) ∧ (act = .lose ↔ Removed c cone interpOk X p) ∧
      (act = .send ↔ ¬ Removed c cone interpOk X p ∧ Outside c X) ∧ (act = .keep ↔ ¬ Removed c cone interpOk X p ∧ ¬ Outside c X) ∧
      (rec = true ↔ p.isTracer = false ∧ c.stopR 0 < X 1 ∧ c.bcR 0 = .camera) := by
  obtain ⟨a, r, e, ha, hr⟩ := isActive_supported c hc cone X p.isTracer
  unfold fate
  rw [e]
  refine ⟨_, _, _, rfl, ?_⟩
  have hne : noError (transport c X false p) = true ↔ ¬ (p.w < SMALL ∨ 0 < p.Kcov 2 0) := by
    simp [noError, transport]
  have hcond : (!a || !noError (transport c X false p) || !interpOk) = true ↔ Removed c cone interpOk X p := by
    simp only [Bool.or_eq_true, Bool.not_eq_true', ← Bool.not_eq_true, ha, hne, Removed]
    cases cone <;> cases interpOk <;> simp only [not_and_or, not_not, reduceCtorEq, not_true, not_false_iff, false_or, true_or, or_true, or_false]
    constructor
    · rintro (h | h | h)
      exacts [.inr (.inr h), .inl h, .inr (.inl h)]
    · rintro (h | h | h)
      exacts [.inr (.inl h), .inr (.inr h), .inl h]
  have hl := leaves_iff c X
  refine ⟨?_, ?_, ?_, ?_⟩
  · by_cases h : Removed c cone interpOk X p
    · simp [hcond.2 h, h]
    · have := mt hcond.1 h
      simp only [this, h, iff_false]
      simp only [Bool.false_eq_true, if_false]
      split_ifs <;> simp
  · by_cases h : Removed c cone interpOk X p
    · simp [hcond.2 h, h]
    · have := mt hcond.1 h
      simp only [this, h, not_false_iff, true_and, ← hl]
      simp only [Bool.false_eq_true, if_false]
      split_ifs with h2 <;> simp [h2]
  · by_cases h : Removed c cone interpOk X p
    · simp [hcond.2 h, h]
    · have := mt hcond.1 h
      simp only [this, h, not_false_iff, true_and, ← hl]
      simp only [Bool.false_eq_true, if_false]
      split_ifs with h2 <;> simp [h2]
  · rw [hr]
    cases p.isTracer <;> simp [PastHigh]

/-- **C38 (unsupported types stop the program).** The pass stops only for a particle past a face whose type is neither periodic nor
escape, nor a camera at the upper radial face. -/
theorem C38_exit (c : Dom K) (cone interpOk : Bool) (X : Fin 4 → K) (p : Ph K) (h : fate c cone interpOk X p = none) :
    (∃ d, PastLow c X d ∧ c.bcL d ≠ .periodic ∧ c.bcL d ≠ .escape) ∨
      ∃ d, PastHigh c X p.isTracer d ∧ c.bcR d ≠ .periodic ∧ c.bcR d ≠ .escape := by
  by_contra hn
  push Not at hn
  obtain ⟨h1, h2⟩ := hn
  have hf : ∀ (bc : RadBC) (b : Bool), (b = true → bc ≠ .periodic → bc = .escape) → ∃ a, face bc b = some a := by
    intro bc b hb
    cases b
    · exact ⟨_, rfl⟩
    · by_cases hp : bc = .periodic
      · subst hp; exact ⟨_, rfl⟩
      · rw [hb rfl hp]; exact ⟨_, rfl⟩
  have hX : ∃ a, faceX1R c.minkowski (c.bcR 0)
      (if p.isTracer then X 1 > c.stop1 else X 1 > c.stopR 0) p.isTracer = some a := by
    by_cases hb : (if p.isTracer then decide (X 1 > c.stop1) else decide (X 1 > c.stopR 0)) = true
    · have hp : PastHigh c X p.isTracer 0 := by
        revert hb; cases p.isTracer <;> simp [PastHigh]
      rw [hb]
      by_cases hp2 : c.bcR 0 = .periodic
      · rw [hp2]; exact ⟨_, rfl⟩
      · rw [h2 0 hp hp2]; exact ⟨_, rfl⟩
    · rw [Bool.not_eq_true] at hb
      rw [hb]; exact ⟨_, rfl⟩
  obtain ⟨a2, e2⟩ := hX
  obtain ⟨a1, e1⟩ := hf (c.bcL 0) (X 1 < c.startR 0) fun hb => h1 0 (by simpa [PastLow] using hb)
  obtain ⟨a3, e3⟩ := hf (c.bcL 1) (X 2 < c.startR 1) fun hb => h1 1 (by simpa [PastLow] using hb)
  obtain ⟨a4, e4⟩ := hf (c.bcR 1) (X 2 > c.stopR 1) fun hb => h2 1 (by simpa [PastHigh] using hb)
  obtain ⟨a5, e5⟩ := hf (c.bcL 2) (X 3 < c.startR 2) fun hb => h1 2 (by simpa [PastLow] using hb)
  obtain ⟨a6, e6⟩ := hf (c.bcR 2) (X 3 > c.stopR 2) fun hb => h2 2 (by simpa [PastHigh] using hb)
  simp [fate, isActive, e1, e2, e3, e4, e5, e6] at h

/-- **C38 (one particle, two counters).** A recorded particle is always removed as well, so it is counted both as recorded and as lost;
the loss counter is the number of removed particles, recorded or not. -/
theorem C38_recorded_removed (c : Dom K) (hc : Supported c) (cone interpOk : Bool) (X : Fin 4 → K) (p : Ph K) (act : Act) (q : Ph K)
    (h : fate c cone interpOk X p = some (act, true, q)) : act = .lose := by
  obtain ⟨act', rec', q', e, h1, -, -, h4⟩ := C38_decision c hc cone interpOk X p
  rw [h] at e
  simp only [Option.some.injEq, Prod.mk.injEq] at e
  obtain ⟨rfl, rfl, rfl⟩ := e
  obtain ⟨ht, hx, hb⟩ := h4.1 rfl
  refine h1.2 (.inr (.inr (.inr (.inr (.inr ⟨0, ?_, by simp [hb]⟩)))))
  simpa [PastHigh, ht] using hx

/-! ## The periodic shift -/

theorem wrap1_low {start stop X x : K} (perR : Bool) (hX : X < start) (hss : start < stop) :
    wrap1 start stop true perR true X x = x + (stop - start) := by
  have : ¬ X > stop := not_lt.2 (hX.trans hss).le
  simp only [wrap1, hX, this, false_and, if_false, and_self, if_true]
  ring

theorem wrap1_high {start stop X x : K} (perL : Bool) (hX : stop < X) (hss : start < stop) :
    wrap1 start stop perL true true X x = x - (stop - start) := by
  have : ¬ X < start := not_lt.2 (hss.trans hX).le
  simp only [wrap1, hX, this, false_and, if_false, and_self, if_true]
  ring

theorem wrap1_mid {start stop X x : K} (perL perR may : Bool) (h1 : start ≤ X) (h2 : X ≤ stop) :
    wrap1 start stop perL perR may X x = x := by
  simp [wrap1, not_lt.2 h1, not_lt.2 h2]

/-- The amount a stored coordinate is moved by does not depend on the stored coordinate. -/
theorem wrap1_translate (start stop : K) (perL perR may : Bool) (X x y : K) :
    wrap1 start stop perL perR may X x - x = wrap1 start stop perL perR may X y - y := by
  unfold wrap1
  split_ifs <;> ring

/-- **C38 (wrap).** In a direction with periodic faces whose wrap applies here, a particle less than one domain length outside is put back
into the domain: the new coordinate is in the domain and differs from the old one by a domain length, or by nothing if it was inside. -/
theorem C38_wrap (start stop X : K) (hss : start < stop) (h1 : start - (stop - start) ≤ X) (h2 : X ≤ stop + (stop - start)) :
    start ≤ wrap1 start stop true true true X X ∧ wrap1 start stop true true true X X ≤ stop ∧
      (wrap1 start stop true true true X X = X ∧ start ≤ X ∧ X ≤ stop ∨
        wrap1 start stop true true true X X = X + (stop - start) ∧ X < start ∨
        wrap1 start stop true true true X X = X - (stop - start) ∧ stop < X) := by
  rcases lt_or_ge X start with h | h
  · rw [wrap1_low true h hss]
    exact ⟨by linarith, by linarith, .inr (.inl ⟨rfl, h⟩)⟩
  · rcases lt_or_ge stop X with h' | h'
    · rw [wrap1_high true h' hss]
      exact ⟨by linarith, by linarith, .inr (.inr ⟨rfl, h'⟩)⟩
    · rw [wrap1_mid _ _ _ h h']
      exact ⟨h, h', .inl ⟨rfl, h, h'⟩⟩

/-- **C38 (wrap, once).** Further out than one domain length the wrapped coordinate is still outside. -/
theorem C38_wrap_once (start stop X : K) (hss : start < stop) (h : X < start - (stop - start)) :
    wrap1 start stop true true true X X < start := by
  rw [wrap1_low true (by linarith) hss]
  linarith

/-- **C38 (wrap keeps the rest).** The shift moves all stored positions of the particle by the same amount in each direction, so their
differences are kept; times, momenta, weight and type are not touched, and a direction where the particle is inside the domain, or whose
crossed face is not periodic, or which is left to the receiving rank, is not changed. -/
theorem C38_wrap_rigid (c : Dom K) (X : Fin 4 → K) (tr : Bool) (p : Ph K) :
    (transport c X tr p).Kcov = p.Kcov ∧ (transport c X tr p).Kcon = p.Kcon ∧ (transport c X tr p).w = p.w ∧
    (transport c X tr p).isTracer = p.isTracer ∧ (∀ n, (transport c X tr p).X n 0 = p.X n 0) ∧
    (∀ m n mu, (transport c X tr p).X m mu - (transport c X tr p).X n mu = p.X m mu - p.X n mu) ∧
    ∀ n d, ((c.startR d ≤ X d.succ ∧ X d.succ ≤ c.stopR d) ∨ (X d.succ < c.startR d ∧ c.startR d < c.stopR d ∧ c.bcL d ≠ .periodic) ∨
        (c.stopR d < X d.succ ∧ c.startR d < c.stopR d ∧ c.bcR d ≠ .periodic) ∨ (1 < c.ncpu d ∧ tr = false)) →
      (transport c X tr p).X n d.succ = p.X n d.succ := by
  refine ⟨rfl, rfl, rfl, rfl, fun n => rfl, fun m n mu => ?_, fun n d h => ?_⟩
  · induction mu using Fin.cases with
    | zero => rfl
    | succ d =>
      have := wrap1_translate (c.startR d) (c.stopR d) (c.bcL d == .periodic) (c.bcR d == .periodic) (c.ncpu d == 1 || tr) (X d.succ)
        (p.X m d.succ) (p.X n d.succ)
      simp only [transport, Fin.cases_succ]
      linear_combination this
  · simp only [transport, Fin.cases_succ]
    rcases h with ⟨h1, h2⟩ | ⟨h1, h2, h3⟩ | ⟨h1, h2, h3⟩ | ⟨h1, h2⟩
    · exact wrap1_mid _ _ _ h1 h2
    · have : ¬ X d.succ > c.stopR d := not_lt.2 (h1.trans h2).le
      simp [wrap1, this, h3]
    · have : ¬ X d.succ < c.startR d := not_lt.2 (h2.trans h1).le
      simp [wrap1, this, h3]
    · have : (c.ncpu d == 1) = false := by simp; omega
      simp [wrap1, this, h2]

/-- **C38 (wrap and interpolation).** Interpolating between two stored positions after the shift gives the shifted interpolated position,
so the particle ends inside the domain at the time the test was made for. -/
theorem C38_wrap_interp (start stop : K) (perL perR may : Bool) (X a b fac : K) :
    fac * wrap1 start stop perL perR may X b + (1 - fac) * wrap1 start stop perL perR may X a =
      wrap1 start stop perL perR may X (fac * b + (1 - fac) * a) := by
  have h1 := wrap1_translate start stop perL perR may X b (fac * b + (1 - fac) * a)
  have h2 := wrap1_translate start stop perL perR may X a (fac * b + (1 - fac) * a)
  linear_combination fac * h1 + (1 - fac) * h2

/-! ## A configuration -/

/-- Three periodic directions, the third divided between four ranks; this is the first of them. -/
def box : Dom ℚ :=
  { startR := fun _ => 0, stopR := fun _ => 4, stop1 := 4, startP := fun _ => 0, stopP := ![4, 4, 1], ncpu := ![1, 1, 4]
    bcL := fun _ => .periodic, bcR := fun _ => .periodic, minkowski := true }

/-- A photon at `x`. -/
def at3 (x y z : ℚ) : Ph ℚ := { X := fun _ => ![0, x, y, z], Kcov := fun _ => ![-1, 1, 0, 0], Kcon := fun _ => ![1, 1, 0, 0], w := 1, isTracer := false }

example : Supported box := ⟨fun _ => .inl rfl, fun _ => .inl rfl⟩

example : (fate box false true ![0, -1, 1, 1/2] (at3 (-1) 1 (1/2))).map (fun r => (r.1, r.2.2.X 2 1)) = some (.keep, 3) := by
  norm_num [fate, isActive, face, faceX1R, box, at3, noError, SMALL, leaves, transport, wrap1, Fin.cases, Fin.induction]
  decide +kernel

end Nubhlight.PhotonBounds
