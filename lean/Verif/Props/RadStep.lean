import Verif.Props.Interact
import Verif.Props.Emission
import Verif.Props.RadSync
import Verif.Model.RadStep
import Mathlib.Algebra.BigOperators.Group.Finset.Sigma
import Mathlib.Tactic.LinearCombination

set_option autoImplicit false
set_option linter.unusedSectionVars false

/-! # C134: gas and packets exchange energy without loss through the radiation part of any number of steps -/

namespace Nubhlight.RadStep

open Bounds RadSync Emission Interact

variable {K : Type*} [Field K] [LinearOrder K] [IsStrictOrderedRing K]

/-! ## Specification -/

/-- Sum over all ranks and over some zones of each. -/
noncomputable def overZones (d1 d2 d3 : Dim) (Z1 Z2 Z3 : ℤ → Finset ℤ) (f : World K) : K :=
  ∑ c1 ∈ Finset.Ico 0 d1.C, ∑ c2 ∈ Finset.Ico 0 d2.C, ∑ c3 ∈ Finset.Ico 0 d3.C,
    ∑ i ∈ Z1 c1, ∑ j ∈ Z2 c2, ∑ k ∈ Z3 c3, f c1 c2 c3 i j k

/-- Active zones. -/
noncomputable def actives (d : Dim) (_ : ℤ) : Finset ℤ := Finset.Ico NG (d.N + NG)

/-- Component `mu` of the momentum of the gas in the whole grid. -/
noncomputable def gas (d1 d2 d3 : Dim) (d3x : K) (mu : Fin 4) (s : State K) : K :=
  d3x * overZones d1 d2 d3 (actives d1) (actives d2) (actives d3) fun c1 c2 c3 i j k => (s.U c1 c2 c3 i j k).U mu

/-- Component `mu` of the momentum of a list of packets. -/
def carried (kphys : K) (mu : Fin 4) (l : List (Pkt K)) : K := (l.map fun p => kphys * (p.w * p.Kcov mu)).sum

/-- Component `mu` of the momentum of all packets. -/
noncomputable def packets (d1 d2 d3 : Dim) (kphys : K) (mu : Fin 4) (s : State K) : K :=
  ∑ c1 ∈ Finset.Ico 0 d1.C, ∑ c2 ∈ Finset.Ico 0 d2.C, ∑ c3 ∈ Finset.Ico 0 d3.C, carried kphys mu (s.pk c1 c2 c3)

/-- Gas and packets. -/
noncomputable def whole (d1 d2 d3 : Dim) (d3x kphys : K) (mu : Fin 4) (s : State K) : K :=
  gas d1 d2 d3 d3x mu s + packets d1 d2 d3 kphys mu s

/-- A zone of a rank, active or the next ghost zone, that is a zone of the grid (not beyond an outer boundary). -/
def Near (d : Dim) (c i : ℤ) : Prop :=
  (NG - 1 ≤ i ∧ i ≤ d.N + NG) ∧ (i < NG → (d.leftOf c).isSome = true) ∧ (d.N + NG ≤ i → (d.rightOf c).isSome = true)

/-- What is assumed of the inputs of a rank: emission in active zones and interactions in the grid (`single`: in the rank itself
in directions with one zone per rank, core/interact.c:484-490, 629-635), no packet dropped, scatterings and
their pushes succeed, and component `mu` does not change along a path (C41, C43). -/
structure Lossless (d1 d2 d3 : Dim) (mu : Fin 4) (c1 c2 c3 : ℤ) (d : Inputs K) : Prop where
  emit : ∀ e ∈ d.es, act d1 e.zone.1 ∧ act d2 e.zone.2.1 ∧ act d3 e.zone.2.2
  near : ∀ n p m, Near d1 c1 (d.draws n p m).zone.1 ∧ Near d2 c2 (d.draws n p m).zone.2.1 ∧ Near d3 c3 (d.draws n p m).zone.2.2
  single : ∀ n p m, (d1.N = 1 → act d1 (d.draws n p m).zone.1) ∧ (d2.N = 1 → act d2 (d.draws n p m).zone.2.1) ∧ (d3.N = 1 → act d3 (d.draws n p m).zone.2.2)
  kept : ∀ n p m, (d.draws n p m).pre ≠ .remove
  scatt : ∀ n p m, (d.draws n p m).scattOk = true
  push : ∀ n p m, (d.draws n p m).pushOk = true
  path : ∀ n p m, (d.draws n p m).Kin mu = p.Kcov mu
  move : ∀ n v, d.move n v mu = v mu

/-! ## One packet -/

/-- Momentum handed to the gas in an interaction. -/
def given (mu : Fin 4) : Ev K Zone → K
  | .absorbed _ _ w k => w * k mu
  | .scattered _ _ w k k' => w * (k mu - k' mu)
  | .failedScatter _ _ => 0
  | .failedPush _ _ w k k' => w * (k mu - k' mu)

/-- Zone of an interaction is one of a set. -/
def Ev.within (R : Finset Zone) : Ev K Zone → Prop
  | .absorbed _ z _ _ => z ∈ R
  | .scattered _ z _ _ _ => z ∈ R
  | .failedScatter _ _ => True
  | .failedPush _ z _ _ _ => z ∈ R

/-- Momentum of the packets split off. -/
def split (mu : Fin 4) (l : List (Scattered K)) : K := (l.map fun p => p.w * p.Kcov mu).sum

/-- Account of one packet between two states. -/
def Account (c : Consts K) (mu : Fin 4) (k : K) (R : Finset Zone) (s s' : PS K Zone) : Prop :=
  ∃ new : List (Ev K Zone), s'.w * k + split mu s'.out + (new.map (given mu)).sum = s.w * k + split mu s.out ∧
    (∀ z, c.dt * c.d3x * ((s'.G z).G mu - (s.G z).G mu) = c.kphys * (new.map (Ev.gas z mu)).sum) ∧ ∀ e ∈ new, Ev.within R e

theorem Account.refl (c : Consts K) (mu : Fin 4) (k : K) (R : Finset Zone) (s s' : PS K Zone) (hw : s'.w = s.w) (ho : s'.out = s.out) (hG : s'.G = s.G) :
    Account c mu k R s s' := ⟨[], by simp [hw, ho], by simp [hG], by simp⟩

theorem Account.trans {c : Consts K} {mu : Fin 4} {k : K} {R : Finset Zone} {s s1 s2 : PS K Zone} (h1 : Account c mu k R s s1)
    (h2 : Account c mu k R s1 s2) : Account c mu k R s s2 := by
  obtain ⟨a, a1, a2, a3⟩ := h1
  obtain ⟨b, b1, b2, b3⟩ := h2
  refine ⟨b ++ a, ?_, fun z => ?_, ?_⟩
  · rw [List.map_append, List.sum_append]; linear_combination a1 + b1
  · rw [List.map_append, List.sum_append]; linear_combination a2 z + b2 z
  · intro e he
    rcases List.mem_append.mp he with he | he
    · exact b3 e he
    · exact a3 e he

theorem pass_account (g : Interact.Cfg K) (hdt : g.c.dt ≠ 0) (hx : g.c.d3x ≠ 0) (mu : Fin 4) (k : K) (R : Finset Zone) (s s' : PS K Zone) (d : Draw K Zone)
    (ctl : Ctl) (hk : d.pre ≠ .remove) (hs : d.scattOk = true) (hp : d.pushOk = true) (hz : d.zone ∈ R) (hK : d.Kin mu = k)
    (h : pass g s d = some (s', ctl)) : Account g.c mu k R s s' := by
  unfold pass at h
  split at h
  · simp only [Option.some.injEq, Prod.mk.injEq] at h
    obtain ⟨rfl, -⟩ := h
    exact Account.refl _ _ _ _ _ _ rfl rfl rfl
  · rename_i hr; exact absurd hr hk
  · obtain ⟨ch, -, h⟩ := Option.bind_eq_some_iff.1 h
    split at h
    · simp only [Option.some.injEq, Prod.mk.injEq] at h
      obtain ⟨rfl, -⟩ := h
      exact Account.refl _ _ _ _ _ _ rfl rfl rfl
    · split_ifs at h with hi
      · simp only [Option.some.injEq, Prod.mk.injEq] at h
        obtain ⟨rfl, -⟩ := h
        refine ⟨[.absorbed 0 d.zone s.w d.Kin], ?_, fun z => ?_, ?_⟩
        · simp [given, hK]; ring
        · by_cases hz : z = d.zone
          · subst hz
            simp only [Function.update_self, absorbInto, List.map_cons, List.map_nil, List.sum_cons, List.sum_nil, Ev.gas, if_true]
            field_simp
            ring
          · have hz' : ¬ d.zone = z := fun h => hz h.symm
            simp only [Function.update_of_ne hz, List.map_cons, List.map_nil, List.sum_cons, List.sum_nil, Ev.gas, if_neg hz']
            ring
        · intro e he; simp only [List.mem_singleton] at he; subst he; exact hz
      · simp only [Option.some.injEq, Prod.mk.injEq] at h
        obtain ⟨rfl, -⟩ := h
        exact Account.refl _ _ _ _ _ _ rfl rfl rfl
    · rename_i c f
      split_ifs at h with hi hb
      · simp only [Option.some.injEq, Prod.mk.injEq] at h
        obtain ⟨rfl, -⟩ := h
        refine ⟨[.scattered 0 d.zone (s.w / c.bias) d.Kin d.Kout], ?_, fun z => ?_, ?_⟩
        · simp [given, split, hK]; field_simp; ring
        · by_cases hz : z = d.zone
          · subst hz
            simp only [Function.update_self, scatterInto, List.map_cons, List.map_nil, List.sum_cons, List.sum_nil, Ev.gas, if_true]
            field_simp
            ring
          · have hz' : ¬ d.zone = z := fun h => hz h.symm
            simp only [Function.update_of_ne hz, List.map_cons, List.map_nil, List.sum_cons, List.sum_nil, Ev.gas, if_neg hz']
            ring
        · intro e he; simp only [List.mem_singleton] at he; subst he; exact hz
      · simp only [Option.some.injEq, Prod.mk.injEq] at h
        obtain ⟨rfl, -⟩ := h
        exact Account.refl _ _ _ _ _ _ rfl rfl rfl

/-- Draws without losses. -/
def Fine (mu : Fin 4) (k : K) (R : Finset Zone) (d : Draw K Zone) : Prop :=
  d.pre ≠ .remove ∧ d.scattOk = true ∧ d.pushOk = true ∧ d.zone ∈ R ∧ d.Kin mu = k

theorem inner_account (g : Interact.Cfg K) (hdt : g.c.dt ≠ 0) (hx : g.c.d3x ≠ 0) (mu : Fin 4) (k : K) (R : Finset Zone) (draws : ℕ → Draw K Zone)
    (hd : ∀ m, Fine mu k R (draws m)) (n pos : ℕ) (s s' : PS K Zone) (ctl : Ctl) (pos' : ℕ) (h : Interact.inner g draws n pos s = some (s', ctl, pos')) :
    Account g.c mu k R s s' := by
  induction n generalizing pos s with
  | zero =>
    simp only [Interact.inner, Option.some.injEq, Prod.mk.injEq] at h
    obtain ⟨rfl, -⟩ := h
    exact Account.refl _ _ _ _ _ _ rfl rfl rfl
  | succ n ih =>
    obtain ⟨⟨s1, c1⟩, hp, h⟩ := Option.bind_eq_some_iff.1 h
    obtain ⟨q1, q2, q3, q4, q5⟩ := hd pos
    have ha := pass_account g hdt hx mu k R s s1 (draws pos) c1 q1 q2 q3 q4 q5 hp
    cases c1 with
    | next =>
      simp only [Option.some.injEq, Prod.mk.injEq] at h
      obtain ⟨rfl, -⟩ := h
      exact ha
    | removed =>
      simp only [Option.some.injEq, Prod.mk.injEq] at h
      obtain ⟨rfl, -⟩ := h
      exact ha
    | again => exact ha.trans (ih (pos + 1) s1 h)

theorem outer_account (g : Interact.Cfg K) (hdt : g.c.dt ≠ 0) (hx : g.c.d3x ≠ 0) (mu : Fin 4) (k : K) (R : Finset Zone) (draws : ℕ → Draw K Zone)
    (hd : ∀ m, Fine mu k R (draws m)) (fuel pos : ℕ) (s s' : PS K Zone) (pos' : ℕ) (h : outer g draws fuel pos s = some (s', pos')) :
    Account g.c mu k R s s' := by
  induction fuel generalizing pos s with
  | zero => simp [outer] at h
  | succ fuel ih =>
    unfold outer at h
    split_ifs at h with hw
    · simp only [Option.some.injEq, Prod.mk.injEq] at h
      obtain ⟨rfl, -⟩ := h
      exact Account.refl _ _ _ _ _ _ rfl rfl rfl
    · obtain ⟨⟨s1, c1, p1⟩, hi, h⟩ := Option.bind_eq_some_iff.1 h
      have ha := inner_account g hdt hx mu k R draws hd _ _ _ _ _ _ hi
      have ha' : Account g.c mu k R s s1 := (Account.refl _ _ _ _ _ _ rfl rfl rfl).trans ha
      cases c1 with
      | next =>
        simp only [Option.some.injEq, Prod.mk.injEq] at h
        obtain ⟨rfl, -⟩ := h
        exact ha'
      | removed =>
        simp only [Option.some.injEq, Prod.mk.injEq] at h
        obtain ⟨rfl, -⟩ := h
        exact ha'
      | again => exact ha'.trans (ih p1 s1 h)

/-! ## One rank -/

theorem gas_total (R : Finset Zone) (mu : Fin 4) (e : Ev K Zone) (h : Ev.within R e) : ∑ z ∈ R, Ev.gas z mu e = given mu e := by
  cases e with
  | absorbed t z w k => simp only [Ev.gas, given]; rw [Finset.sum_ite_eq]; exact if_pos h
  | scattered t z w k k' => simp only [Ev.gas, given]; rw [Finset.sum_ite_eq]; exact if_pos h
  | failedScatter t w => simp [Ev.gas, given]
  | failedPush t z w k k' => simp only [Ev.gas, given]; rw [Finset.sum_ite_eq]; exact if_pos h

theorem gas_list (R : Finset Zone) (mu : Fin 4) (l : List (Ev K Zone)) (h : ∀ e ∈ l, Ev.within R e) :
    ∑ z ∈ R, (l.map (Ev.gas z mu)).sum = (l.map (given mu)).sum := by
  induction l with
  | nil => simp
  | cons e l ih =>
    simp only [List.map_cons, List.sum_cons]
    rw [Finset.sum_add_distrib, gas_total R mu e (h e List.mem_cons_self), ih fun e he => h e (List.mem_cons_of_mem _ he)]

/-- Four-force of a rank over a set of zones, times step and volume. -/
def force (c : Consts K) (mu : Fin 4) (R : Finset Zone) (G : Zone → Source K) : K := c.dt * c.d3x * ∑ z ∈ R, (G z).G mu

theorem account_force {c : Consts K} {mu : Fin 4} {k : K} {R : Finset Zone} {s s' : PS K Zone} (h : Account c mu k R s s') :
    force c mu R s'.G + c.kphys * (s'.w * k + split mu s'.out) = force c mu R s.G + c.kphys * (s.w * k + split mu s.out) := by
  obtain ⟨new, h1, h2, h3⟩ := h
  have hsum : force c mu R s'.G - force c mu R s.G = c.kphys * (new.map (given mu)).sum := by
    unfold force
    rw [← mul_sub, ← Finset.sum_sub_distrib, Finset.mul_sum, Finset.sum_congr rfl fun z _ => h2 z, ← Finset.mul_sum, gas_list R mu new h3]
  linear_combination hsum + c.kphys * h1

theorem carried_append (kphys : K) (mu : Fin 4) (l m : List (Pkt K)) : carried kphys mu (l ++ m) = carried kphys mu l + carried kphys mu m := by
  unfold carried; rw [List.map_append, List.sum_append]

theorem carried_split (kphys : K) (mu : Fin 4) (l : List (Scattered K)) : carried kphys mu (l.map ofScattered) = kphys * split mu l := by
  unfold carried split
  induction l with
  | nil => simp
  | cons p l ih => simp only [List.map_cons, List.sum_cons, ofScattered] at ih ⊢; rw [ih]; ring

theorem work_account (g : Settings K) (d : Inputs K) (hdt : g.c.dt ≠ 0) (hx : g.c.d3x ≠ 0) (mu : Fin 4) (R : Finset Zone)
    (hd : ∀ n p m, Fine mu (p.Kcov mu) R (d.draws n p m)) (hm : ∀ n v, d.move n v mu = v mu) (fuel : ℕ) :
    ∀ (n : ℕ) (G : Zone → Source K) (l : List (Pkt K)) (G' : Zone → Source K) (l' : List (Pkt K)), work g d fuel n G l = some (G', l') →
      force g.c mu R G' + carried g.c.kphys mu l' = force g.c mu R G + carried g.c.kphys mu l := by
  induction fuel with
  | zero =>
    intro n G l G' l' h
    cases l with
    | nil =>
      simp only [work, Option.some.injEq, Prod.mk.injEq] at h
      obtain ⟨rfl, rfl⟩ := h
      rfl
    | cons p l => simp [work] at h
  | succ fuel ih =>
    intro n G l G' l' h
    cases l with
    | nil =>
      simp only [work, Option.some.injEq, Prod.mk.injEq] at h
      obtain ⟨rfl, rfl⟩ := h
      rfl
    | cons p l =>
      simp only [work] at h
      obtain ⟨⟨s', pos'⟩, ho, h⟩ := Option.bind_eq_some_iff.1 h
      rw [Option.map_eq_some_iff] at h
      obtain ⟨⟨G1, l1⟩, hw, h⟩ := h
      simp only [Prod.mk.injEq] at h
      obtain ⟨rfl, rfl⟩ := h
      have ha := account_force (outer_account _ hdt hx mu (d.move n p.Kcov mu) R _ (fun m => hd n ⟨p.w, d.move n p.Kcov⟩ m) _ _ _ _ _ ho)
      have hi := ih _ _ _ _ _ hw
      rw [carried_append, carried_split] at hi
      simp only at hi ha
      rw [hm] at ha
      have e1 : carried g.c.kphys mu (⟨s'.w, d.move n p.Kcov⟩ :: l1) = g.c.kphys * (s'.w * p.Kcov mu) + carried g.c.kphys mu l1 := by
        unfold carried; simp only [List.map_cons, List.sum_cons]; rw [hm]
      have e2 : carried g.c.kphys mu (p :: l) = g.c.kphys * (p.w * p.Kcov mu) + carried g.c.kphys mu l := by
        unfold carried; simp only [List.map_cons, List.sum_cons]
      rw [e1, e2]
      have e3 : split mu ([] : List (Scattered K)) = 0 := rfl
      rw [e3] at ha
      linear_combination hi + ha

theorem emission_force (g : Settings K) (d : Inputs K) (hdt : g.c.dt ≠ 0) (hx : g.c.d3x ≠ 0) (mu : Fin 4) (R : Finset Zone) (hR : ∀ e ∈ d.es, e.zone ∈ R)
    (G : Zone → Source K) :
    force g.c mu R (make false g.c g.t ⟨[], G, 0, 0⟩ d.es).radG + carried g.c.kphys mu ((make false g.c g.t ⟨[], G, 0, 0⟩ d.es).list.map ofEmitted) =
      force g.c mu R G := by
  have key : ∀ (es : List (Event K Zone)) (s : St K Zone), (∀ e ∈ es, e.zone ∈ R) →
      force g.c mu R (make false g.c g.t s es).radG + carried g.c.kphys mu ((make false g.c g.t s es).list.map ofEmitted) =
        force g.c mu R s.radG + carried g.c.kphys mu (s.list.map ofEmitted) := by
    intro es
    induction es with
    | nil => intro s _; rfl
    | cons e es ih =>
      intro s hs
      have h1 := ih (emitPair false g.c g.t s e) fun e he => hs e (List.mem_cons_of_mem _ he)
      have h2 : make false g.c g.t s (e :: es) = make false g.c g.t (emitPair false g.c g.t s e) es := rfl
      rw [h2, h1]
      obtain ⟨p, q, hl, hp, hq, hmom, -, -⟩ := emitPair_spec g.c hdt hx g.t s e e.zone
      have hall : ∀ z, ∃ v, (g.c.dt * g.c.d3x * (((emitPair false g.c g.t s e).radG z).G mu - (s.radG z).G mu) = v) ∧
          v = if e.zone = z then -(g.c.kphys * (p.w * p.Kcov mu) + g.c.kphys * (q.w * q.Kcov mu)) else 0 := by
        intro z
        refine ⟨_, rfl, ?_⟩
        by_cases hz : e.zone = z
        · subst hz
          rw [if_pos rfl, hmom mu]
          unfold momentum
          simp only [List.map_cons, List.map_nil, List.sum_cons, List.sum_nil, hp, hq, if_true]
          ring
        · rw [if_neg hz]
          have : (emitPair false g.c g.t s e).radG z = s.radG z := by
            unfold emitPair
            simp only
            rw [Function.update_of_ne fun h => hz h.symm]
          rw [this]; ring
      have hsum : force g.c mu R (emitPair false g.c g.t s e).radG - force g.c mu R s.radG =
          -(g.c.kphys * (p.w * p.Kcov mu) + g.c.kphys * (q.w * q.Kcov mu)) := by
        unfold force
        rw [← mul_sub, ← Finset.sum_sub_distrib, Finset.mul_sum]
        rw [Finset.sum_congr rfl fun z _ => by obtain ⟨v, hv, hv'⟩ := hall z; exact hv.trans hv']
        rw [Finset.sum_ite_eq, if_pos (hs e List.mem_cons_self)]
      rw [hl]
      unfold carried
      simp only [List.map_cons, List.sum_cons, ofEmitted]
      linear_combination hsum
  have := key d.es ⟨[], G, 0, 0⟩ hR
  rw [this]
  simp [carried]

theorem account_off {c : Consts K} (hdt : c.dt ≠ 0) (hx : c.d3x ≠ 0) {mu : Fin 4} {k : K} {R : Finset Zone} {s s' : PS K Zone} (h : Account c mu k R s s')
    (z : Zone) (hz : z ∉ R) : (s'.G z).G mu = (s.G z).G mu := by
  obtain ⟨new, -, h2, h3⟩ := h
  have e : (new.map (Ev.gas z mu)).sum = 0 := by
    apply List.sum_eq_zero
    intro x hxm
    obtain ⟨e, he, rfl⟩ := List.mem_map.1 hxm
    have := h3 e he
    cases e with
    | absorbed t z' w k => simp only [Ev.gas]; rw [if_neg]; rintro rfl; exact hz this
    | scattered t z' w k k' => simp only [Ev.gas]; rw [if_neg]; rintro rfl; exact hz this
    | failedScatter t w => rfl
    | failedPush t z' w k k' => simp only [Ev.gas]; rw [if_neg]; rintro rfl; exact hz this
  have h := h2 z
  rw [e, mul_zero, mul_eq_zero, mul_eq_zero] at h
  rcases h with (h | h) | h
  · exact absurd h hdt
  · exact absurd h hx
  · exact sub_eq_zero.1 h

theorem work_off (g : Settings K) (d : Inputs K) (hdt : g.c.dt ≠ 0) (hx : g.c.d3x ≠ 0) (mu : Fin 4) (R : Finset Zone)
    (hd : ∀ n p m, Fine mu (p.Kcov mu) R (d.draws n p m)) (z : Zone) (hz : z ∉ R) (fuel : ℕ) :
    ∀ (n : ℕ) (G : Zone → Source K) (l : List (Pkt K)) (G' : Zone → Source K) (l' : List (Pkt K)), work g d fuel n G l = some (G', l') →
      (G' z).G mu = (G z).G mu := by
  induction fuel with
  | zero =>
    intro n G l G' l' h
    cases l with
    | nil =>
      simp only [work, Option.some.injEq, Prod.mk.injEq] at h
      obtain ⟨rfl, rfl⟩ := h
      rfl
    | cons p l => simp [work] at h
  | succ fuel ih =>
    intro n G l G' l' h
    cases l with
    | nil =>
      simp only [work, Option.some.injEq, Prod.mk.injEq] at h
      obtain ⟨rfl, rfl⟩ := h
      rfl
    | cons p l =>
      simp only [work] at h
      obtain ⟨⟨s', pos'⟩, ho, h⟩ := Option.bind_eq_some_iff.1 h
      rw [Option.map_eq_some_iff] at h
      obtain ⟨⟨G1, l1⟩, hw, h⟩ := h
      simp only [Prod.mk.injEq] at h
      obtain ⟨rfl, rfl⟩ := h
      exact (ih _ _ _ _ _ hw).trans
        (account_off hdt hx (outer_account _ hdt hx mu (d.move n p.Kcov mu) R _ (fun m => hd n ⟨p.w, d.move n p.Kcov⟩ m) _ _ _ _ _ ho) z hz)

theorem emission_off (g : Settings K) (R : Finset Zone) (z : Zone) (hz : z ∉ R) : ∀ (es : List (Event K Zone)) (s : St K Zone), (∀ e ∈ es, e.zone ∈ R) →
    (make false g.c g.t s es).radG z = s.radG z := by
  intro es
  induction es with
  | nil => intro s _; rfl
  | cons e es ih =>
    intro s hs
    have h2 : make false g.c g.t s (e :: es) = make false g.c g.t (emitPair false g.c g.t s e) es := rfl
    rw [h2, ih _ fun e he => hs e (List.mem_cons_of_mem _ he)]
    unfold emitPair
    simp only
    rw [Function.update_of_ne]
    rintro rfl
    exact hz (hs e List.mem_cons_self)

/-! ## All ranks -/

instance (d : Dim) (c i : ℤ) : Decidable (Near d c i) := by unfold Near; infer_instance

/-- Zones of a rank that are in the grid and can be given something. -/
noncomputable def nears (d : Dim) (c : ℤ) : Finset ℤ :=
  (Finset.Ico (NG - NGR) (d.N + NG + NGR)).filter fun i => Near d c i

theorem mem_nears {d : Dim} {c i : ℤ} : i ∈ nears d c ↔ Near d c i := by
  have hNG : NG = 3 := rfl
  have hNGR : NGR = 1 := rfl
  unfold nears
  rw [Finset.mem_filter, Finset.mem_Ico]
  constructor
  · exact fun h => h.2
  · intro h
    have := h.1
    exact ⟨⟨by omega, by omega⟩, h⟩

theorem fold_copies {d : Dim} (hd : d.WF) (f : ℤ × ℤ → K) :
    ∑ c ∈ Finset.Ico 0 d.C, ∑ i ∈ actives d c, ∑ p ∈ copies d c i, f p = ∑ c ∈ Finset.Ico 0 d.C, ∑ i ∈ nears d c, f (c, i) := by
  have hNG : NG = 3 := rfl
  have hNGR : NGR = 1 := rfl
  have hN := hd.N_pos
  have hC := hd.C_pos
  have lhs : ∑ c ∈ Finset.Ico 0 d.C, ∑ i ∈ actives d c, ∑ p ∈ copies d c i, f p =
      ∑ p ∈ (Finset.Ico 0 d.C ×ˢ Finset.Ico NG (d.N + NG)).biUnion (fun x => copies d x.1 x.2), f p := by
    rw [Finset.sum_biUnion, Finset.sum_product]
    · rfl
    · intro x hx y hy hne
      simp only [Finset.coe_product, Set.mem_prod, Finset.mem_coe, Finset.mem_Ico] at hx hy
      rw [Function.onFun, Finset.disjoint_left]
      intro p hp hp'
      apply hne
      simp only [copies, Finset.mem_filter] at hp hp'
      have hx' := glob_inside d hd x.1 x.2 hx.1 hx.2
      have hy' := glob_inside d hd y.1 y.2 hy.1 hy.2
      have heq : glob d x.1 x.2 = glob d y.1 y.2 := by
        have h1 := hp.2
        have h2 := hp'.2
        unfold SameZone at h1 h2
        split_ifs at h1 h2 with hper
        · have h3 : (glob d x.1 x.2 - glob d y.1 y.2) % d.tot = 0 := by
            rw [← Int.dvd_iff_emod_eq_zero] at h1 h2 ⊢
            have := Int.dvd_sub h2 h1
            rwa [show glob d p.1 p.2 - glob d y.1 y.2 - (glob d p.1 p.2 - glob d x.1 x.2) = glob d x.1 x.2 - glob d y.1 y.2 by ring] at this
          rw [← Int.dvd_iff_emod_eq_zero] at h3
          have h4 := Int.eq_zero_of_abs_lt_dvd h3 (by rw [abs_lt]; constructor <;> omega)
          omega
        · exact h1.symm.trans h2
      obtain ⟨a, b⟩ := x
      obtain ⟨a', b'⟩ := y
      simp only [glob] at heq hx hy
      have e1 : a = a' := by
        have h5 : (a - a') * d.N < d.N := by nlinarith
        have h6 : -d.N < (a - a') * d.N := by nlinarith
        have h7 : a - a' < 1 := by nlinarith
        have h8 : -1 < a - a' := by nlinarith
        omega
      subst e1
      simp only [Prod.mk.injEq, true_and]
      omega
  have rhs : ∑ c ∈ Finset.Ico 0 d.C, ∑ i ∈ nears d c, f (c, i) =
      ∑ p ∈ (Finset.Ico 0 d.C ×ˢ Finset.Ico (NG - NGR) (d.N + NG + NGR)).filter (fun p => Near d p.1 p.2), f p := by
    rw [Finset.sum_filter, Finset.sum_product]
    refine Finset.sum_congr rfl fun c _ => ?_
    have e : ∀ g : ℤ → K, ∑ i ∈ Finset.Ico (NG - NGR) (d.N + NG + NGR), (if Near d c i then g i else 0) =
        ∑ i ∈ (Finset.Ico (NG - NGR) (d.N + NG + NGR)).filter (fun i => Near d c i), g i := fun g => (Finset.sum_filter _ _).symm
    refine Eq.trans ?_ (e fun i => f (c, i)).symm
    refine Finset.sum_congr ?_ fun _ _ => rfl
    ext i
    rw [mem_nears, Finset.mem_filter, Finset.mem_Ico]
    constructor
    · intro h; have := h.1; exact ⟨⟨by omega, by omega⟩, h⟩
    · exact fun h => h.2
  rw [lhs, rhs]
  refine Finset.sum_congr ?_ fun _ _ => rfl
  ext ⟨c', i'⟩
  simp only [Finset.mem_biUnion, Finset.mem_product, Finset.mem_Ico, Finset.mem_filter]
  constructor
  · rintro ⟨⟨c, i⟩, ⟨hc, hi⟩, hp⟩
    simp only at hc hi
    have hext := mem_copies_ext hp
    have hs : SameZone d (c', i') (c, i) := by simp only [copies, Finset.mem_filter] at hp; exact hp.2
    refine ⟨⟨hext.1, hext.2⟩, ?_⟩
    rw [sameZone_iff d hN hC c i hc.1 hc.2 hi c' i' hext.1.1 hext.1.2 hext.2] at hs
    unfold Near
    rcases hs with ⟨rfl, rfl⟩ | ⟨hl, hi2, hi3⟩ | ⟨hl, hi2, hi3⟩
    · exact ⟨⟨by omega, by omega⟩, fun h => by omega, fun h => by omega⟩
    · refine ⟨⟨by omega, by omega⟩, fun h => by omega, fun _ => ?_⟩
      unfold Dim.leftOf at hl
      unfold Dim.rightOf
      split_ifs at hl with h1 h2
      · rw [if_pos (by simp only [Option.some.injEq] at hl; omega), if_pos h2]; rfl
      · rw [if_neg (by simp only [Option.some.injEq] at hl; omega)]; rfl
    · refine ⟨⟨by omega, by omega⟩, fun _ => ?_, fun h => by omega⟩
      unfold Dim.rightOf at hl
      unfold Dim.leftOf
      split_ifs at hl with h1 h2
      · rw [if_pos (by simp only [Option.some.injEq] at hl; omega), if_pos h2]; rfl
      · rw [if_neg (by simp only [Option.some.injEq] at hl; omega)]; rfl
  · rintro ⟨⟨hc, hi⟩, hn⟩
    obtain ⟨hr, hl, hu⟩ := hn
    have put : ∀ c i, (0 ≤ c ∧ c < d.C) → act d i → SameZone d (c', i') (c, i) →
        ∃ a : ℤ × ℤ, ((0 ≤ a.1 ∧ a.1 < d.C) ∧ NG ≤ a.2 ∧ a.2 < d.N + NG) ∧ (c', i') ∈ copies d a.1 a.2 := by
      intro c i h1 h2 h3
      refine ⟨(c, i), ⟨h1, h2⟩, ?_⟩
      simp only [copies, Finset.mem_filter, Finset.mem_product, Finset.mem_Ico]
      exact ⟨⟨hc, hi⟩, h3⟩
    by_cases h1 : i' < NG
    · have := hl h1
      obtain ⟨c, ec⟩ := Option.isSome_iff_exists.mp this
      have hcc : 0 ≤ c ∧ c < d.C ∧ d.rightOf c = some c' := by
        unfold Dim.leftOf at ec
        unfold Dim.rightOf
        split_ifs at ec with h2 h3
        · simp only [Option.some.injEq] at ec
          refine ⟨by omega, by omega, ?_⟩
          rw [if_pos (by omega), if_pos h3]
          congr 1; omega
        · simp only [Option.some.injEq] at ec
          refine ⟨by omega, by omega, ?_⟩
          rw [if_neg (by omega)]
          congr 1; omega
      have ha : act d (d.N + NG - 1) := by unfold act; omega
      refine put c (d.N + NG - 1) ⟨hcc.1, hcc.2.1⟩ ha ?_
      rw [sameZone_iff d hN hC c _ hcc.1 hcc.2.1 ha c' i' hc.1 hc.2 hi]
      exact Or.inr (Or.inr ⟨hcc.2.2, rfl, by omega⟩)
    · by_cases h2 : d.N + NG ≤ i'
      · have := hu h2
        obtain ⟨c, ec⟩ := Option.isSome_iff_exists.mp this
        have hcc : 0 ≤ c ∧ c < d.C ∧ d.leftOf c = some c' := by
          unfold Dim.rightOf at ec
          unfold Dim.leftOf
          split_ifs at ec with h2 h3
          · simp only [Option.some.injEq] at ec
            refine ⟨by omega, by omega, ?_⟩
            rw [if_pos (by omega), if_pos h3]
            congr 1; omega
          · simp only [Option.some.injEq] at ec
            refine ⟨by omega, by omega, ?_⟩
            rw [if_neg (by omega)]
            congr 1; omega
        have ha : act d NG := by unfold act; omega
        refine put c NG ⟨hcc.1, hcc.2.1⟩ ha ?_
        rw [sameZone_iff d hN hC c _ hcc.1 hcc.2.1 ha c' i' hc.1 hc.2 hi]
        exact Or.inr (Or.inl ⟨hcc.2.2, rfl, by omega⟩)
      · have ha : act d i' := by unfold act; omega
        refine put c' i' hc ha ?_
        rw [sameZone_iff d hN hC c' _ hc.1 hc.2 ha c' i' hc.1 hc.2 hi]
        exact Or.inl ⟨rfl, rfl⟩

theorem overZones_order (d1 d2 d3 : Dim) (Z1 Z2 Z3 : ℤ → Finset ℤ) (f : World K) : overZones d1 d2 d3 Z1 Z2 Z3 f =
    ∑ c1 ∈ Finset.Ico 0 d1.C, ∑ i ∈ Z1 c1, ∑ c2 ∈ Finset.Ico 0 d2.C, ∑ j ∈ Z2 c2, ∑ c3 ∈ Finset.Ico 0 d3.C, ∑ k ∈ Z3 c3, f c1 c2 c3 i j k := by
  unfold overZones
  refine Finset.sum_congr rfl fun c1 _ => ?_
  refine (Finset.sum_congr rfl fun c2 _ => Finset.sum_comm).trans (Finset.sum_comm.trans ?_)
  exact Finset.sum_congr rfl fun i _ => Finset.sum_congr rfl fun c2 _ => Finset.sum_comm

theorem out_of (A : Finset ℤ) (Z : ℤ → Finset ℤ) (T : Finset (ℤ × ℤ)) (h : ℤ × ℤ → ℤ → ℤ → K) :
    ∑ c ∈ A, ∑ k ∈ Z c, ∑ q ∈ T, h q c k = ∑ q ∈ T, ∑ c ∈ A, ∑ k ∈ Z c, h q c k := by
  refine (Finset.sum_congr rfl fun c _ => Finset.sum_comm).trans Finset.sum_comm

theorem gather_total {d1 d2 d3 : Dim} (h1 : d1.WF) (h2 : d2.WF) (h3 : d3.WF) (W : World K) (hW : Placed d1 d2 d3 W) :
    overZones d1 d2 d3 (actives d1) (actives d2) (actives d3) (syncAdd d1 d2 d3 W) = overZones d1 d2 d3 (nears d1) (nears d2) (nears d3) W := by
  have e : overZones d1 d2 d3 (actives d1) (actives d2) (actives d3) (syncAdd d1 d2 d3 W) =
      overZones d1 d2 d3 (actives d1) (actives d2) (actives d3) fun c1 c2 c3 i j k =>
        ∑ r ∈ copies d3 c3 k, ∑ q ∈ copies d2 c2 j, ∑ p ∈ copies d1 c1 i, W p.1 q.1 r.1 p.2 q.2 r.2 := by
    unfold overZones
    refine Finset.sum_congr rfl fun c1 hc1 => Finset.sum_congr rfl fun c2 hc2 => Finset.sum_congr rfl fun c3 hc3 =>
      Finset.sum_congr rfl fun i hi => Finset.sum_congr rfl fun j hj => Finset.sum_congr rfl fun k hk => ?_
    simp only [actives, Finset.mem_Ico] at hc1 hc2 hc3 hi hj hk
    have := h1.N_pos; have := h1.C_pos; have := h2.N_pos; have := h2.C_pos; have := h3.N_pos; have := h3.C_pos
    exact C57_gather d1 d2 d3 ⟨by omega, by omega⟩ ⟨by omega, by omega⟩ ⟨by omega, by omega⟩ W hW c1 c2 c3 i j k hc1 hc2 hc3 hi hj hk
  rw [e, overZones_order, overZones_order]
  have s3 : ∀ c1 i c2 j : ℤ, ∑ c3 ∈ Finset.Ico 0 d3.C, ∑ k ∈ actives d3 c3, ∑ r ∈ copies d3 c3 k, ∑ q ∈ copies d2 c2 j, ∑ p ∈ copies d1 c1 i,
      W p.1 q.1 r.1 p.2 q.2 r.2 = ∑ q ∈ copies d2 c2 j, ∑ p ∈ copies d1 c1 i, ∑ c3 ∈ Finset.Ico 0 d3.C, ∑ k ∈ nears d3 c3, W p.1 q.1 c3 p.2 q.2 k := by
    intro c1 i c2 j
    rw [fold_copies h3 fun r => ∑ q ∈ copies d2 c2 j, ∑ p ∈ copies d1 c1 i, W p.1 q.1 r.1 p.2 q.2 r.2]
    rw [out_of (Finset.Ico 0 d3.C) (nears d3) (copies d2 c2 j) fun q c3 k => ∑ p ∈ copies d1 c1 i, W p.1 q.1 c3 p.2 q.2 k]
    refine Finset.sum_congr rfl fun q _ => ?_
    rw [out_of (Finset.Ico 0 d3.C) (nears d3) (copies d1 c1 i) fun p c3 k => W p.1 q.1 c3 p.2 q.2 k]
  have s2 : ∀ c1 i : ℤ, ∑ c2 ∈ Finset.Ico 0 d2.C, ∑ j ∈ actives d2 c2, ∑ q ∈ copies d2 c2 j, ∑ p ∈ copies d1 c1 i,
      ∑ c3 ∈ Finset.Ico 0 d3.C, ∑ k ∈ nears d3 c3, W p.1 q.1 c3 p.2 q.2 k =
      ∑ p ∈ copies d1 c1 i, ∑ c2 ∈ Finset.Ico 0 d2.C, ∑ j ∈ nears d2 c2, ∑ c3 ∈ Finset.Ico 0 d3.C, ∑ k ∈ nears d3 c3, W p.1 c2 c3 p.2 j k := by
    intro c1 i
    rw [fold_copies h2 fun q => ∑ p ∈ copies d1 c1 i, ∑ c3 ∈ Finset.Ico 0 d3.C, ∑ k ∈ nears d3 c3, W p.1 q.1 c3 p.2 q.2 k]
    rw [out_of (Finset.Ico 0 d2.C) (nears d2) (copies d1 c1 i) fun p c2 j => ∑ c3 ∈ Finset.Ico 0 d3.C, ∑ k ∈ nears d3 c3, W p.1 c2 c3 p.2 j k]
  simp only [s3, s2]
  exact fold_copies h1 fun p => ∑ c2 ∈ Finset.Ico 0 d2.C, ∑ j ∈ nears d2 c2, ∑ c3 ∈ Finset.Ico 0 d3.C, ∑ k ∈ nears d3 c3, W p.1 c2 c3 p.2 j k

theorem near_of_act {d : Dim} {c i : ℤ} (h : act d i) : Near d c i := by
  unfold act at h
  exact ⟨⟨by omega, by omega⟩, fun h' => by omega, fun h' => by omega⟩

/-- Zones of a rank in the grid. -/
noncomputable def around (d1 d2 d3 : Dim) (c1 c2 c3 : ℤ) : Finset Zone := nears d1 c1 ×ˢ nears d2 c2 ×ˢ nears d3 c3

theorem rank_account (d1 d2 d3 : Dim) (g : Settings K) (hdt : g.c.dt ≠ 0) (hx : g.c.d3x ≠ 0) (mu : Fin 4) (c1 c2 c3 : ℤ) (d : Inputs K)
    (hd : Lossless d1 d2 d3 mu c1 c2 c3 d) (G G' : Zone → Source K) (l l' : List (Pkt K)) (h : rankRad g d G l = some (G', l')) :
    force g.c mu (around d1 d2 d3 c1 c2 c3) G' + carried g.c.kphys mu l' = force g.c mu (around d1 d2 d3 c1 c2 c3) G + carried g.c.kphys mu l := by
  unfold rankRad at h
  have h1 := work_account g d hdt hx mu (around d1 d2 d3 c1 c2 c3) (fun n p m => ⟨hd.kept n p m, hd.scatt n p m, hd.push n p m, by
    simp only [around, Finset.mem_product, mem_nears]; exact hd.near n p m, hd.path n p m⟩) hd.move _ _ _ _ _ _ h
  rw [carried_append] at h1
  have h2 := emission_force g d hdt hx mu (around d1 d2 d3 c1 c2 c3) (fun e he => by
    simp only [around, Finset.mem_product, mem_nears]
    exact ⟨near_of_act (hd.emit e he).1, near_of_act (hd.emit e he).2.1, near_of_act (hd.emit e he).2.2⟩) G
  linear_combination h1 + h2

theorem rank_off (d1 d2 d3 : Dim) (g : Settings K) (hdt : g.c.dt ≠ 0) (hx : g.c.d3x ≠ 0) (mu : Fin 4) (c1 c2 c3 : ℤ) (d : Inputs K)
    (hd : Lossless d1 d2 d3 mu c1 c2 c3 d) (G G' : Zone → Source K) (l l' : List (Pkt K)) (h : rankRad g d G l = some (G', l')) (z : Zone)
    (hz : (d1.N = 1 ∧ ¬ act d1 z.1) ∨ (d2.N = 1 ∧ ¬ act d2 z.2.1) ∨ (d3.N = 1 ∧ ¬ act d3 z.2.2)) : (G' z).G mu = (G z).G mu := by
  unfold rankRad at h
  have hz' : z ∉ (around d1 d2 d3 c1 c2 c3).erase z := Finset.notMem_erase z _
  have ne : ∀ z', (d1.N = 1 → act d1 z'.1) ∧ (d2.N = 1 → act d2 z'.2.1) ∧ (d3.N = 1 → act d3 z'.2.2) → z' ≠ z := by
    rintro z' ⟨a1, a2, a3⟩ rfl
    rcases hz with hz | hz | hz
    · exact hz.2 (a1 hz.1)
    · exact hz.2 (a2 hz.1)
    · exact hz.2 (a3 hz.1)
  have h1 := work_off g d hdt hx mu ((around d1 d2 d3 c1 c2 c3).erase z) (fun n p m => ⟨hd.kept n p m, hd.scatt n p m, hd.push n p m, by
    refine Finset.mem_erase.2 ⟨ne _ (hd.single n p m), ?_⟩
    simp only [around, Finset.mem_product, mem_nears]; exact hd.near n p m, hd.path n p m⟩) z hz' _ _ _ _ _ _ h
  rw [h1, emission_off g _ z hz' d.es ⟨[], G, 0, 0⟩]
  intro e he
  have ha := hd.emit e he
  refine Finset.mem_erase.2 ⟨ne _ ⟨fun _ => ha.1, fun _ => ha.2.1, fun _ => ha.2.2⟩, ?_⟩
  simp only [around, Finset.mem_product, mem_nears]
  exact ⟨near_of_act ha.1, near_of_act ha.2.1, near_of_act ha.2.2⟩

/-- **C134 (one step).** If nothing is lost on a rank (`Lossless`), no force is left over from before and step and zone volume are not
zero, the radiation part of a step leaves the momentum of gas and packets of the whole grid unchanged, on any number of ranks, and leaves
no force behind. -/
theorem C134_step_partial {d1 d2 d3 : Dim} (h1 : d1.WF) (h2 : d2.WF) (h3 : d3.WF) (g : Settings K) (hdt : g.c.dt ≠ 0) (hx : g.c.d3x ≠ 0)
    (mu : Fin 4) (d : ℤ → ℤ → ℤ → Inputs K) (s s' : State K) (hs : radStep d1 d2 d3 g d s s')
    (hd : ∀ c1 c2 c3, (0 ≤ c1 ∧ c1 < d1.C) → (0 ≤ c2 ∧ c2 < d2.C) → (0 ≤ c3 ∧ c3 < d3.C) → Lossless d1 d2 d3 mu c1 c2 c3 (d c1 c2 c3))
    (h0 : ∀ c1 c2 c3 i j k, (s.G c1 c2 c3 i j k).G mu = 0) :
    whole d1 d2 d3 g.c.d3x g.c.kphys mu s' = whole d1 d2 d3 g.c.d3x g.c.kphys mu s ∧ ∀ c1 c2 c3 i j k, (s'.G c1 c2 c3 i j k).G mu = 0 := by
  obtain ⟨G1, hr, hU, hG⟩ := hs
  refine ⟨?_, fun c1 c2 c3 i j k => by rw [hG]⟩
  have hpl : Placed d1 d2 d3 fun c1 c2 c3 i j k => (G1 c1 c2 c3 i j k).G mu := by
    intro c1 c2 c3 hc i j k hz
    have := rank_off d1 d2 d3 g hdt hx mu c1 c2 c3 _ (hd c1 c2 c3 hc.1 hc.2.1 hc.2.2) _ _ _ _ (hr c1 c2 c3 hc.1 hc.2.1 hc.2.2) (i, j, k) hz
    exact this.trans (h0 _ _ _ _ _ _)
  have hg : gas d1 d2 d3 g.c.d3x mu s' = gas d1 d2 d3 g.c.d3x mu s +
      g.c.dt * g.c.d3x * overZones d1 d2 d3 (nears d1) (nears d2) (nears d3) fun c1 c2 c3 i j k => (G1 c1 c2 c3 i j k).G mu := by
    rw [← gather_total h1 h2 h3 _ hpl]
    unfold gas
    have : overZones d1 d2 d3 (actives d1) (actives d2) (actives d3) (fun c1 c2 c3 i j k => (s'.U c1 c2 c3 i j k).U mu) =
        overZones d1 d2 d3 (actives d1) (actives d2) (actives d3) (fun c1 c2 c3 i j k => (s.U c1 c2 c3 i j k).U mu) +
        g.c.dt * overZones d1 d2 d3 (actives d1) (actives d2) (actives d3)
          (syncAdd d1 d2 d3 fun c1 c2 c3 i j k => (G1 c1 c2 c3 i j k).G mu) := by
      unfold overZones
      simp only [Finset.mul_sum, ← Finset.sum_add_distrib]
      refine Finset.sum_congr rfl fun c1 hc1 => Finset.sum_congr rfl fun c2 hc2 => Finset.sum_congr rfl fun c3 hc3 =>
        Finset.sum_congr rfl fun i hi => Finset.sum_congr rfl fun j hj => Finset.sum_congr rfl fun k hk => ?_
      simp only [actives, Finset.mem_Ico] at hi hj hk
      rw [hU]
      unfold applyAll
      rw [if_pos ⟨hi, hj, hk⟩]
      rfl
    rw [this]; ring
  have hp : packets d1 d2 d3 g.c.kphys mu s' + g.c.dt * g.c.d3x *
      (overZones d1 d2 d3 (nears d1) (nears d2) (nears d3) fun c1 c2 c3 i j k => (G1 c1 c2 c3 i j k).G mu) = packets d1 d2 d3 g.c.kphys mu s := by
    unfold packets overZones
    simp only [Finset.mul_sum, ← Finset.sum_add_distrib]
    refine Finset.sum_congr rfl fun c1 hc1 => Finset.sum_congr rfl fun c2 hc2 => Finset.sum_congr rfl fun c3 hc3 => ?_
    rw [Finset.mem_Ico] at hc1 hc2 hc3
    have := rank_account d1 d2 d3 g hdt hx mu c1 c2 c3 _ (hd c1 c2 c3 hc1 hc2 hc3) _ _ _ _ (hr c1 c2 c3 hc1 hc2 hc3)
    have z : force g.c mu (around d1 d2 d3 c1 c2 c3) (fun z => s.G c1 c2 c3 z.1 z.2.1 z.2.2) = 0 := by
      unfold force; simp only [h0, Finset.sum_const_zero, mul_zero]
    rw [z] at this
    have w : force g.c mu (around d1 d2 d3 c1 c2 c3) (fun z => G1 c1 c2 c3 z.1 z.2.1 z.2.2) =
        ∑ i ∈ nears d1 c1, ∑ j ∈ nears d2 c2, ∑ k ∈ nears d3 c3, g.c.dt * g.c.d3x * (G1 c1 c2 c3 i j k).G mu := by
      unfold force around
      rw [Finset.sum_product, Finset.mul_sum]
      refine Finset.sum_congr rfl fun i _ => ?_
      rw [Finset.sum_product, Finset.mul_sum]
      refine Finset.sum_congr rfl fun j _ => ?_
      rw [Finset.mul_sum]
    rw [← w]
    linear_combination this
  unfold whole
  rw [hg]
  linear_combination hp

/-- **C134 (any number of steps).** Between radiation parts the gas is updated and packets change ranks in any way; only the force must be
left alone. Then all changes of the sum come from there. -/
theorem C134_run_partial {d1 d2 d3 : Dim} (h1 : d1.WF) (h2 : d2.WF) (h3 : d3.WF) (d3x kphys : K) (hx : d3x ≠ 0) (mu : Fin 4)
    (g : ℕ → Settings K) (hg : ∀ n, (g n).c.dt ≠ 0 ∧ (g n).c.d3x = d3x ∧ (g n).c.kphys = kphys) (d : ℕ → ℤ → ℤ → ℤ → Inputs K)
    (s m : ℕ → State K) (hs : ∀ n, radStep d1 d2 d3 (g n) (d n) (s n) (m n))
    (hd : ∀ n c1 c2 c3, (0 ≤ c1 ∧ c1 < d1.C) → (0 ≤ c2 ∧ c2 < d2.C) → (0 ≤ c3 ∧ c3 < d3.C) → Lossless d1 d2 d3 mu c1 c2 c3 (d n c1 c2 c3))
    (h0 : ∀ c1 c2 c3 i j k, ((s 0).G c1 c2 c3 i j k).G mu = 0) (hk : ∀ n, (s (n + 1)).G = (m n).G) (n : ℕ) :
    whole d1 d2 d3 d3x kphys mu (s n) = whole d1 d2 d3 d3x kphys mu (s 0) +
      ∑ k ∈ Finset.range n, (whole d1 d2 d3 d3x kphys mu (s (k + 1)) - whole d1 d2 d3 d3x kphys mu (m k)) := by
  have hz : ∀ n c1 c2 c3 i j k, ((s n).G c1 c2 c3 i j k).G mu = 0 := by
    intro n
    cases n with
    | zero => exact h0
    | succ n =>
      obtain ⟨G1, -, -, hG⟩ := hs n
      intro c1 c2 c3 i j k
      rw [hk n, hG]
  have hw : ∀ n, whole d1 d2 d3 d3x kphys mu (m n) = whole d1 d2 d3 d3x kphys mu (s n) := by
    intro n
    obtain ⟨e1, e2, e3⟩ := hg n
    have := (C134_step_partial h1 h2 h3 (g n) e1 (by rw [e2]; exact hx) mu (d n) (s n) (m n) (hs n) (hd n) (hz n)).1
    rwa [e2, e3] at this
  induction n with
  | zero => simp
  | succ n ih => rw [Finset.sum_range_succ, hw n]; linear_combination ih

/-! ## Witnesses -/

/-- One rank of one zone, with an outer boundary in all directions. -/
def one : Dim := ⟨1, 1, .outflow, .outflow⟩

/-- Two zones. -/
def two : Dim := ⟨2, 1, .outflow, .outflow⟩

/-- An interaction of momentum 1 in a zone. -/
def draw (pre : Pre) (abs : Bool) (zone : Zone) (ok : Bool) (p : Pkt ℚ) : Draw ℚ Zone :=
  { pre := pre, dtauAbs := if abs then 2 else 0, xabs := 1, chans := [⟨1, if abs then 100000 else 1/2, 2⟩], intOk := true, zone := zone, ucon0 := 1,
    Kin := p.Kcov, scattOk := ok, Kout := fun _ => 3, pushOk := true }

/-- The first draw of the third packet as given, otherwise nothing happens. -/
def inputs (abs : Bool) (zone : Zone) (ok : Bool) : Inputs ℚ :=
  ⟨[⟨(3, 3, 3), fun a b => if a = b then 1 else 0, fun a b => if a = b then 1 else 0, 1, 0, 1, 1, 0, 1, 0, 5⟩], fun _ => 1, fun _ => 0, fun _ k => k,
   fun n p m => draw (if m = 0 ∧ n = 2 then .go else .leave) abs zone ok p, 20, 20⟩

/-- From time 0 to time 1, with absorption and scattering. -/
def set : Settings ℚ := ⟨0, true, true, ⟨1, 1, 1, 1⟩⟩

/-- One packet of weight 8. -/
def before : State ℚ := ⟨fun _ _ _ _ _ _ => ⟨fun _ => 10, 0, 0⟩, fun _ _ _ _ _ _ => ⟨fun _ => 0, 0, 0⟩, fun _ _ _ => [⟨8, fun _ => 1⟩]⟩

/-- Force and packets after emission and interactions. -/
def result (d : Inputs ℚ) : (Zone → Source ℚ) × List (Pkt ℚ) :=
  (rankRad set d (fun z => before.G 0 0 0 z.1 z.2.1 z.2.2) (before.pk 0 0 0)).getD (fun _ => ⟨fun _ => 0, 0, 0⟩, [])

/-- State after the step. -/
def after (d1 : Dim) (d : Inputs ℚ) : State ℚ :=
  ⟨applyAll d1 one one 1 (syncAll d1 one one fun _ _ _ i j k => (result d).1 (i, j, k)) before.U, fun _ _ _ _ _ _ => ⟨fun _ => 0, 0, 0⟩,
   fun _ _ _ => (result d).2⟩

theorem after_step (d1 : Dim) (d : Inputs ℚ) (h : (rankRad set d (fun z => before.G 0 0 0 z.1 z.2.1 z.2.2) (before.pk 0 0 0)).isSome = true) :
    radStep d1 one one set (fun _ _ _ => d) before (after d1 d) := by
  refine ⟨fun _ _ _ i j k => (result d).1 (i, j, k), fun _ _ _ _ _ _ => ?_, rfl, rfl⟩
  obtain ⟨x, hx⟩ := Option.isSome_iff_exists.mp h
  have e : result d = x := by unfold result; rw [hx]; rfl
  refine hx.trans ?_
  simp only [after, e]

theorem whole_one (s : State ℚ) (mu : Fin 4) : whole one one one 1 1 mu s = (s.U 0 0 0 3 3 3).U mu + carried 1 mu (s.pk 0 0 0) := by
  have e : Finset.Ico (0 : ℤ) one.C = {0} := by decide
  have a : ∀ c, actives one c = {3} := fun c => by unfold actives; decide
  unfold whole gas packets overZones
  simp only [e, a, Finset.sum_singleton, one_mul]

theorem whole_two (s : State ℚ) (mu : Fin 4) :
    whole two one one 1 1 mu s = (s.U 0 0 0 3 3 3).U mu + (s.U 0 0 0 4 3 3).U mu + carried 1 mu (s.pk 0 0 0) := by
  have e : Finset.Ico (0 : ℤ) one.C = {0} := by decide
  have e' : Finset.Ico (0 : ℤ) two.C = {0} := by decide
  have a : ∀ c, actives one c = {3} := fun c => by unfold actives; decide
  have a' : ∀ c, actives two c = {3, 4} := fun c => by unfold actives; decide
  unfold whole gas packets overZones
  simp only [e, e', a, a', Finset.sum_singleton, one_mul]
  rw [Finset.sum_pair (by decide)]

theorem one_wf : one.WF := by constructor <;> decide

theorem inputs_lossless (abs : Bool) (mu : Fin 4) (c1 c2 c3 : ℤ) : Lossless one one one mu c1 c2 c3 (inputs abs (3, 3, 3) true) where
  emit := by
    intro e he
    simp only [inputs, List.mem_singleton] at he
    subst he
    decide
  near := fun _ _ _ => ⟨near_of_act (show act one 3 by decide), near_of_act (show act one 3 by decide), near_of_act (show act one 3 by decide)⟩
  single := fun _ _ _ => ⟨fun _ => show act one 3 by decide, fun _ => show act one 3 by decide, fun _ => show act one 3 by decide⟩
  kept := by intro n p m; simp only [inputs, draw]; split_ifs <;> decide
  scatt := fun _ _ _ => rfl
  push := fun _ _ _ => rfl
  path := fun _ _ _ => rfl
  move := fun _ _ => rfl

/-- The hypotheses can be met: two packets are emitted, one is absorbed and the gas takes its momentum. -/
example : radStep one one one set (fun _ _ _ => inputs true (3, 3, 3) true) before (after one (inputs true (3, 3, 3) true)) ∧
    ((after one (inputs true (3, 3, 3) true)).U 0 0 0 3 3 3).U 0 = 23 ∧ (after one (inputs true (3, 3, 3) true)).pk 0 0 0 ≠ [] :=
  ⟨after_step _ _ (by decide +kernel), by decide +kernel, fun h => absurd (congrArg List.length h) (by decide +kernel)⟩

/-- Likewise with a scattering. -/
example : radStep one one one set (fun _ _ _ => inputs false (3, 3, 3) true) before (after one (inputs false (3, 3, 3) true)) ∧
    ((after one (inputs false (3, 3, 3) true)).U 0 0 0 3 3 3).U 0 = 7 ∧ ((after one (inputs false (3, 3, 3) true)).pk 0 0 0).length = 4 :=
  ⟨after_step _ _ (by decide +kernel), by decide +kernel, by decide +kernel⟩

/-- The full claim: emission in active zones and a constant of motion are enough. -/
def FullC134 : Prop :=
  ∀ (d1 d2 d3 : Dim) (g : Settings ℚ) (mu : Fin 4) (d : ℤ → ℤ → ℤ → Inputs ℚ) (s s' : State ℚ), d1.WF → d2.WF → d3.WF → g.c.dt ≠ 0 → g.c.d3x ≠ 0 →
    radStep d1 d2 d3 g d s s' →
    (∀ c1 c2 c3, (∀ e ∈ (d c1 c2 c3).es, act d1 e.zone.1 ∧ act d2 e.zone.2.1 ∧ act d3 e.zone.2.2) ∧
      (∀ n p m, ((d c1 c2 c3).draws n p m).Kin mu = p.Kcov mu) ∧ ∀ n v, (d c1 c2 c3).move n v mu = v mu) →
    (∀ c1 c2 c3 i j k, (s.G c1 c2 c3 i j k).G mu = 0) → whole d1 d2 d3 g.c.d3x g.c.kphys mu s' = whole d1 d2 d3 g.c.d3x g.c.kphys mu s

/-- **C134 (negation).** A failed scattering takes half of a packet away. -/
theorem C134_full_false : ¬ FullC134 := by
  intro h
  have := h one one one set 0 (fun _ _ _ => inputs false (3, 3, 3) false) before (after one (inputs false (3, 3, 3) false)) one_wf one_wf one_wf
    (by decide) (by decide) (after_step _ _ (by decide +kernel))
    (fun c1 c2 c3 => ⟨(inputs_lossless false 0 c1 c2 c3).emit, fun _ _ _ => rfl, fun _ _ => rfl⟩) fun _ _ _ _ _ _ => rfl
  rw [show set.c.d3x = 1 from rfl, show set.c.kphys = 1 from rfl, whole_one, whole_one] at this
  revert this
  decide +kernel

/-- **C134 (negation).** A packet absorbed beyond an outer boundary gives its momentum to a ghost zone, from where it is not returned:
the packet is gone and the gas has nothing of it, although nothing failed. -/
theorem C134_beyond_lost : radStep two one one set (fun _ _ _ => inputs true (2, 3, 3) true) before (after two (inputs true (2, 3, 3) true)) ∧
    whole two one one 1 1 0 (after two (inputs true (2, 3, 3) true)) = whole two one one 1 1 0 before - 8 ∧
    (∀ n p m, ((inputs true (2, 3, 3) true).draws n p m).pre ≠ .remove ∧ ((inputs true (2, 3, 3) true).draws n p m).scattOk = true ∧
      ((inputs true (2, 3, 3) true).draws n p m).pushOk = true) := by
  refine ⟨after_step _ _ (by decide +kernel), ?_, fun n p m => ⟨?_, rfl, rfl⟩⟩
  · rw [whole_two, whole_two]; decide +kernel
  · simp only [inputs, draw]; split_ifs <;> decide

end Nubhlight.RadStep
