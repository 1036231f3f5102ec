import Verif.Common
import Verif.Model.Emission
import Mathlib.Tactic.FinCases
import Mathlib.Data.Fin.VecNotation
import Mathlib.MeasureTheory.Measure.Lebesgue.Basic
import Mathlib.Algebra.Order.Floor.Ring

set_option autoImplicit false

/-!
# C44 (emission), C45 (emission time), C54 (lepton signs)
-/

set_option linter.unusedSectionVars false

namespace Nubhlight.Emission

variable {K : Type*} [Field K] [LinearOrder K] [IsStrictOrderedRing K] {Z : Type*} [DecidableEq Z]

/-! ## Specification -/

/-- Four-momentum carried by the packets of a zone, in code units. -/
def momentum (kphys : K) (z : Z) (mu : Fin 4) (l : List (Packet K Z)) : K :=
  (l.map fun p => if p.zone = z then kphys * p.w * p.Kcov mu else 0).sum

/-- Electron lepton number carried by the packets of a zone, as counted at core/diag.c:535-538. -/
def leptons (z : Z) (l : List (Packet K Z)) : K :=
  (l.map fun p => if p.zone = z then p.w * (leptonSign p.type : K) else 0).sum

/-- Electron lepton number of the gas in a zone from its conserved variable: core/diag.c:515-526 counts `u^0 rho RHO_unit/MP * Ye` times
the volume, which is `U[YE]` times the coordinate volume in units of `MP/M_unit`. -/
def gasLeptons (c : Consts K) (u : Cons K) : K := u.ye * c.d3x / c.mp

/-! ## The fold -/

theorem emitPair_spec (c : Consts K) (hdt : c.dt ≠ 0) (hx : c.d3x ≠ 0) (t : K) (s : St K Z) (e : Event K Z) (z : Z) :
    ∃ p q, (emitPair false c t s e).list = p :: q :: s.list ∧ p.zone = e.zone ∧ q.zone = e.zone ∧
      (∀ mu, c.dt * c.d3x * (((emitPair false c t s e).radG z).G mu - (s.radG z).G mu) = -momentum c.kphys z mu [p, q]) ∧
      c.dt * c.d3x * (((emitPair false c t s e).radG z).ye - (s.radG z).ye) = -(e.ucon0 * c.mp * leptons z [p, q]) ∧
      c.dt * c.d3x * (((emitPair false c t s e).radG z).yeEm - (s.radG z).yeEm) = -(e.ucon0 * c.mp * leptons z [p, q]) := by
  refine ⟨packet c t e false, packet c t e true, rfl, rfl, rfl, ?_⟩
  have hz : ∀ b, (packet c t e b).zone = e.zone := fun _ => rfl
  unfold emitPair momentum leptons
  simp only [List.map_cons, List.map_nil, List.sum_cons, List.sum_nil, hz]
  generalize packet c t e false = p
  generalize packet c t e true = q
  by_cases h : z = e.zone
  · subst h
    simp only [Function.update_self, takeFrom, if_true]
    refine ⟨fun mu => ?_, ?_, ?_⟩ <;> field_simp <;> ring
  · have h' : ¬ e.zone = z := fun h' => h h'.symm
    simp only [Function.update_of_ne h, if_neg h']
    refine ⟨fun mu => ?_, ?_, ?_⟩ <;> ring

theorem momentum_append (k : K) (z : Z) (mu : Fin 4) (a b : List (Packet K Z)) :
    momentum k z mu (a ++ b) = momentum k z mu a + momentum k z mu b := by simp [momentum]

/-- **C44 (momentum).** However many packets are emitted, wherever: the packets are added in front of the existing list, the counter counts
them all, and in every zone the four-momentum put into the source term is minus what the new packets of that zone carry. -/
theorem C44_momentum (c : Consts K) (hdt : c.dt ≠ 0) (hx : c.d3x ≠ 0) (t : K) (s : St K Z) (es : List (Event K Z)) :
    ∃ new, (make false c t s es).list = new ++ s.list ∧ new.length = 2 * es.length ∧
      (make false c t s es).made = s.made + new.length ∧ (make false c t s es).lost = s.lost ∧
      ∀ z mu, c.dt * c.d3x * (((make false c t s es).radG z).G mu - (s.radG z).G mu) = -momentum c.kphys z mu new := by
  induction es generalizing s with
  | nil => exact ⟨[], rfl, rfl, rfl, rfl, fun z mu => by simp [make, momentum]⟩
  | cons e es ih =>
    obtain ⟨new, h1, h2, h3, h4, h5⟩ := ih (emitPair false c t s e)
    refine ⟨new ++ [packet c t e false, packet c t e true], ?_, ?_, ?_, ?_, fun z mu => ?_⟩
    · rw [make, List.foldl_cons]
      exact h1.trans (by simp [emitPair])
    · simp [h2]; ring
    · rw [make, List.foldl_cons]
      refine h3.trans ?_
      simp [emitPair]; ring
    · rw [make, List.foldl_cons]
      exact h4
    · obtain ⟨p, q, e1, -, -, e2, -⟩ := emitPair_spec c hdt hx t s e z
      simp only [emitPair, Bool.false_eq_true, if_false, List.cons.injEq] at e1
      obtain ⟨rfl, rfl, -⟩ := e1
      rw [momentum_append, make, List.foldl_cons]
      have := h5 z mu
      have e2 := e2 mu
      unfold make at this
      linear_combination this + e2

/-- **C44 (gas).** After the force is applied with the same step, the gas of a zone has lost exactly what its packets carry. -/
theorem C44_gas (c : Consts K) (hdt : c.dt ≠ 0) (hx : c.d3x ≠ 0) (t : K) (s : St K Z) (es : List (Event K Z))
    (h0 : ∀ z mu, (s.radG z).G mu = 0) (u : Z → Cons K) :
    ∃ new, (make false c t s es).list = new ++ s.list ∧ ∀ z mu,
      c.d3x * (applyForce c.dt ((make false c t s es).radG z) (u z)).U mu + momentum c.kphys z mu new = c.d3x * (u z).U mu := by
  obtain ⟨new, h1, -, -, -, h5⟩ := C44_momentum c hdt hx t s es
  refine ⟨new, h1, fun z mu => ?_⟩
  have := h5 z mu
  rw [h0, sub_zero] at this
  simp only [applyForce]
  linear_combination this

/-- **C44 (killed packets).** When all packets are discarded the momentum is taken from the gas all the same, and all are counted lost. -/
theorem C44_killed (c : Consts K) (t : K) (s : St K Z) (es : List (Event K Z)) :
    (make true c t s es).list = s.list ∧ (make true c t s es).made = s.made + 2 * es.length ∧
      (make true c t s es).lost = s.lost + 2 * es.length ∧ (make true c t s es).radG = (make false c t s es).radG := by
  have hr : ∀ s s' : St K Z, s.radG = s'.radG → (es.foldl (emitPair true c t) s).radG = (es.foldl (emitPair false c t) s').radG := by
    induction es with
    | nil => intro s s' h; exact h
    | cons e es ih =>
      intro s s' h
      rw [List.foldl_cons, List.foldl_cons]
      exact ih _ _ (by simp [emitPair, h])
  refine ⟨?_, ?_, ?_, hr s s rfl⟩
  · unfold make
    clear hr
    induction es generalizing s with
    | nil => rfl
    | cons e es ih => rw [List.foldl_cons, ih]; rfl
  · unfold make
    clear hr
    induction es generalizing s with
    | nil => rfl
    | cons e es ih => rw [List.foldl_cons, ih]; simp [emitPair]; ring
  · unfold make
    clear hr
    induction es generalizing s with
    | nil => rfl
    | cons e es ih => rw [List.foldl_cons, ih]; simp [emitPair]; ring

/-- **C44 (null).** Each packet is null in the fluid frame, has energy `E` there, and its covariant and contravariant vectors agree. -/
theorem C44_null (e : Event K Z) (b : Bool) (h1 : e.cth ^ 2 + e.sth ^ 2 = 1) (h2 : e.cphi ^ 2 + e.sphi ^ 2 = 1) :
    kTetradCon e b 0 = e.E ∧ kTetrad e b 0 = -e.E ∧ (∀ i : Fin 3, kTetrad e b i.succ = kTetradCon e b i.succ) ∧
      kTetrad e b 0 * kTetradCon e b 0 + kTetrad e b 1 * kTetradCon e b 1 + kTetrad e b 2 * kTetradCon e b 2 +
        kTetrad e b 3 * kTetradCon e b 3 = 0 := by
  refine ⟨by simp [kTetradCon, kTetrad], rfl, fun i => ?_, ?_⟩
  · fin_cases i <;> rfl
  · cases b <;> simp only [kTetrad, kTetradCon, dir, Bool.false_eq_true, if_false, if_true] <;>
      linear_combination e.E ^ 2 * h1 + e.E ^ 2 * e.sth ^ 2 * h2

/-- **C44 (pairs; partial).** The two packets of a pair have opposite spatial momentum in the fluid frame, and with equal weights the
pair's net four-momentum is `-E*weight` along the fluid's own covariant direction. Missing: pairs one of whose packets has positive `K_0`
(possible inside an ergosphere), whose weight alone is set to zero (`C44_pair_false`). -/
theorem C44_pair_partial (c : Consts K) (t : K) (e : Event K Z) (ha : (packet c t e false).Kcov 0 ≤ 0)
    (hb : (packet c t e true).Kcov 0 ≤ 0) :
    (∀ i : Fin 3, kTetrad e false i.succ + kTetrad e true i.succ = 0) ∧ (packet c t e false).w = (packet c t e true).w ∧
      ∀ mu, (packet c t e false).w * (packet c t e false).Kcov mu + (packet c t e true).w * (packet c t e true).Kcov mu =
        -(e.weight * e.E * e.Ecov 0 mu) := by
  refine ⟨fun i => ?_, ?_, fun mu => ?_⟩
  · fin_cases i <;> simp [kTetrad, dir]
  · simp only [packet] at *
    rw [if_neg (not_lt.2 ha), if_neg (not_lt.2 hb)]
  · have wa : (packet c t e false).w = 1 / 2 * e.weight := by
      simp only [packet] at *
      rw [if_neg (not_lt.2 ha)]
    have wb : (packet c t e true).w = 1 / 2 * e.weight := by
      simp only [packet] at *
      rw [if_neg (not_lt.2 hb)]
    rw [wa, wb]
    simp only [packet, tetradToCoord, kTetrad, dir, Bool.false_eq_true, if_false, if_true]
    ring

/-- Flat space in coordinates moving faster than light, `x = x' + 2 t`: the static observer's tetrad. -/
def ergo : Event ℚ Unit :=
  { zone := (), Econ := ![![1, -2, 0, 0], ![0, 1, 0, 0], ![0, 0, 1, 0], ![0, 0, 0, 1]],
    Ecov := ![![1, 0, 0, 0], ![2, 1, 0, 0], ![0, 0, 1, 0], ![0, 0, 0, 1]], ucon0 := 1, type := 0, E := 1, cth := 1, sth := 0, cphi := 1,
    sphi := 0, weight := 1 }

/-- **C44 (pairs, negation).** Where a packet can have positive `K_0` the pair is not balanced: one packet is emitted with weight zero. -/
theorem C44_pair_false : ¬ ∀ (c : Consts ℚ) (t : ℚ) (e : Event ℚ Unit), 0 < c.dt → e.cth ^ 2 + e.sth ^ 2 = 1 → e.cphi ^ 2 + e.sphi ^ 2 = 1 →
    ∀ i : Fin 3, (packet c t e false).w * kTetrad e false i.succ + (packet c t e true).w * kTetrad e true i.succ = 0 := by
  intro h
  have := h ⟨1, 1, 1, 1⟩ 0 ergo (by norm_num) (by decide +kernel) (by decide +kernel) 0
  revert this
  decide +kernel

/-- **C44 (lepton number, exact).** If all emission is from gas with the same `u^0`, the gas and the packets together gain `(1 - u^0)`
times the lepton number of the packets. -/
theorem C44_lepton_defect (c : Consts K) (hdt : c.dt ≠ 0) (hx : c.d3x ≠ 0) (hm : c.mp ≠ 0) (t ut : K) (s : St K Z) (es : List (Event K Z))
    (hu : ∀ e ∈ es, e.ucon0 = ut) (h0 : ∀ z, (s.radG z).ye = 0) (u : Z → Cons K) :
    ∃ new, (make false c t s es).list = new ++ s.list ∧ ∀ z,
      gasLeptons c (applyForce c.dt ((make false c t s es).radG z) (u z)) + leptons z new =
        gasLeptons c (u z) + (1 - ut) * leptons z new := by
  have key : ∀ (es : List (Event K Z)) (s : St K Z), (∀ e ∈ es, e.ucon0 = ut) →
      ∃ new, (make false c t s es).list = new ++ s.list ∧
        ∀ z, c.dt * c.d3x * (((make false c t s es).radG z).ye - (s.radG z).ye) = -(ut * c.mp * leptons z new) := by
    intro es
    induction es with
    | nil => exact fun s _ => ⟨[], rfl, fun z => by simp [make, leptons]⟩
    | cons e es ih =>
      intro s hu
      obtain ⟨new, h1, h5⟩ := ih (emitPair false c t s e) fun e he => hu e (List.mem_cons_of_mem _ he)
      refine ⟨new ++ [packet c t e false, packet c t e true], ?_, fun z => ?_⟩
      · rw [make, List.foldl_cons]
        exact h1.trans (by simp [emitPair])
      · obtain ⟨p, q, e1, -, -, -, e2, -⟩ := emitPair_spec c hdt hx t s e z
        simp only [emitPair, Bool.false_eq_true, if_false, List.cons.injEq] at e1
        obtain ⟨rfl, rfl, -⟩ := e1
        rw [hu e (by simp)] at e2
        have ha : leptons z (new ++ [packet c t e false, packet c t e true]) =
            leptons z new + leptons z [packet c t e false, packet c t e true] := by simp [leptons]
        rw [ha, make, List.foldl_cons]
        have := h5 z
        unfold make at this
        linear_combination this + e2
  obtain ⟨new, h1, h5⟩ := key es s hu
  refine ⟨new, h1, fun z => ?_⟩
  have := h5 z
  rw [h0, sub_zero] at this
  unfold gasLeptons applyForce
  simp only
  field_simp
  linear_combination this

/-- The full lepton clause of C44. -/
def FullLeptons : Prop :=
  ∀ (c : Consts ℚ) (t : ℚ) (s : St ℚ Unit) (e : Event ℚ Unit) (u : Unit → Cons ℚ), 0 < c.dt → 0 < c.d3x → 0 < c.mp → 1 ≤ e.ucon0 →
    (∀ z, (s.radG z).ye = 0) → ∀ new, (make false c t s [e]).list = new ++ s.list →
      gasLeptons c (applyForce c.dt ((make false c t s [e]).radG ()) (u ())) + leptons () new = gasLeptons c (u ())

/-- **C44 (lepton number, negation).** The lepton number taken from moving gas is `u^0` times that of the packet. -/
theorem C44_lepton_false : ¬ FullLeptons := by
  intro h
  have := h ⟨1, 1, 1, 1⟩ 0 ⟨[], fun _ => ⟨fun _ => 0, 0, 0⟩, 0, 0⟩
    { ergo with Ecov := ![![1, 0, 0, 0], ![0, 1, 0, 0], ![0, 0, 1, 0], ![0, 0, 0, 1]], ucon0 := 2 }
    (fun _ => ⟨fun _ => 0, 0, 0⟩) (by norm_num) (by norm_num) (by norm_num) (by norm_num) (fun _ => rfl) _ (List.append_nil _).symm
  revert this
  decide +kernel

/-- **C44 (units).** A packet's energy in code units is `h nu` times its weight over `M_unit c^2`. -/
theorem C44_units (w nu hpl me cl munit : K) (hme : me ≠ 0) (hm : munit ≠ 0) (hc : cl ≠ 0) :
    me / munit * w * (nu * hpl / (me * cl * cl)) = w * (hpl * nu) / (munit * cl ^ 2) := by
  field_simp

/-- **C44 (number of pairs).** For a nonnegative expected number `d` the number of pairs is `d` rounded down or up. -/
theorem C44_pairs [FloorRing K] (d r : K) (hd : 0 ≤ d) (hr : 0 ≤ r) :
    (pairs d r = ⌊d⌋ ∨ pairs d r = ⌈d⌉) ∧ (pairs d r = ⌊d⌋ + 1 ↔ r < d - ⌊d⌋) := by
  unfold pairs
  simp only [hd, if_true]
  split_ifs with h
  · refine ⟨Or.inr ?_, by rw [eq_self_iff_true, true_iff]; exact h⟩
    symm
    rw [Int.ceil_eq_iff]
    push_cast
    have := Int.lt_floor_add_one d
    exact ⟨by linarith, this.le⟩
  · exact ⟨Or.inl rfl, ⟨fun e => by omega, fun e => absurd e h⟩⟩

/-- **C44 (unbiased).** With `r` uniform on `[0, 1)` the number of pairs exceeds `⌊d⌋` with probability exactly the fraction of `d`. -/
theorem C44_unbiased (d : ℝ) (hd : 0 ≤ d) :
    MeasureTheory.volume {r : ℝ | r ∈ Set.Ico 0 1 ∧ pairs d r = ⌊d⌋ + 1} = ENNReal.ofReal (d - ⌊d⌋) := by
  have : {r : ℝ | r ∈ Set.Ico 0 1 ∧ pairs d r = ⌊d⌋ + 1} = Set.Ico 0 (d - ⌊d⌋) := by
    ext r
    simp only [Set.mem_ofPred_eq, Set.mem_Ico]
    have h1 := Int.lt_floor_add_one d
    constructor
    · rintro ⟨⟨h, -⟩, h3⟩
      exact ⟨h, ((C44_pairs d r hd h).2).1 h3⟩
    · rintro ⟨h, h'⟩
      exact ⟨⟨h, by linarith⟩, ((C44_pairs d r hd h).2).2 h'⟩
  rw [this, Real.volume_Ico, sub_zero]

/-! ## C45 -/

/-- The full claim. -/
def FullEmissionTime : Prop :=
  ∀ (c : Consts ℚ) (t : ℚ) (e : Event ℚ Unit) (b : Bool), 0 < c.dt → (packet c t e b).time = (packet c t e b).t0

/-- **C45 (negation).** The recorded emission time is half a step later than the time of the packet's position, in every emission. -/
theorem C45_half_step_off (c : Consts K) (t : K) (e : Event K Z) (b : Bool) : (packet c t e b).t0 - (packet c t e b).time = c.dt / 2 := by
  simp [packet]

theorem C45_full_false : ¬ FullEmissionTime := by
  intro h
  have h1 := h ⟨1, 1, 1, 1⟩ 0 ergo false (by norm_num)
  have h2 := C45_half_step_off ⟨1, 1, 1, 1⟩ 0 ergo false
  rw [h1, sub_self] at h2
  norm_num at h2

/-! ## C54 -/

/-- **C54.** Signs are +1, -1 or 0; the electron antineutrino is opposite to the electron neutrino; heavy types, tracers and every other
type carry none; exactly the two electron types carry any. -/
theorem C54_sign (type : ℤ) :
    (leptonSign type = 1 ∨ leptonSign type = -1 ∨ leptonSign type = 0) ∧ leptonSign 1 = -leptonSign 0 ∧ leptonSign 0 = 1 ∧
      (nuIsHeavy type = true → leptonSign type = 0) ∧ leptonSign (-1) = 0 ∧ (leptonSign type ≠ 0 ↔ type = 0 ∨ type = 1) := by
  unfold leptonSign nuIsHeavy
  refine ⟨?_, by decide, by decide, ?_, by decide, ?_⟩
  · split_ifs <;> simp
  · intro h
    simp only [Bool.or_eq_true, decide_eq_true_eq] at h
    rcases h with rfl | rfl <;> decide
  · split_ifs with h1 h2 <;> simp_all

/-- **C54 (every number of types).** For up to four neutrino types, the types in use are the electron pair and heavy ones. -/
theorem C54_types (n : ℕ) (hn : n ≤ 4) (type : ℤ) (h0 : 0 ≤ type) (h : type < n) :
    (nuIsHeavy type = true ↔ leptonSign type = 0) := by
  unfold leptonSign nuIsHeavy
  simp only [Bool.or_eq_true, decide_eq_true_eq]
  split_ifs with h1 h2
  · simp; omega
  · simp; omega
  · simp; omega

example : (make false ⟨1, 1, 1, 1⟩ (0 : ℚ) ⟨[], fun _ : Unit => ⟨fun _ => 0, 0, 0⟩, 0, 0⟩ [ergo, ergo]).made = 4 := by decide +kernel

end Nubhlight.Emission
