import Verif.Props.FluidStep
import Verif.Props.FluxCT

set_option autoImplicit false
set_option linter.unusedSectionVars false

/-! # C127: the magnetic divergence on the whole divided grid, through whole runs -/

namespace Nubhlight.FluidStep

open Bounds Inflow

variable {K : Type*} [Field K] [LinearOrder K] [IsStrictOrderedRing K]

/-! ## Specification -/

/-- What the solver does with the field: conserved field is the determinant `g` times the field (core/phys.c:34-36, 54), it has no
source (core/phys.c:107-118), recovery divides by `g` whether or not it succeeds (core/utop.c:37-39), floors leave it alone
(core/fixup.c:108-257). -/
structure FieldLaws (sol : Solver K) (g : ℤ → ℤ → K) : Prop where
  g_ne : ∀ I J, g I J ≠ 0
  cons : ∀ I J Kk v (q : Fin 8), 5 ≤ q.val → sol.cons I J Kk v q = g I J * v q
  source : ∀ I J Kk Dt v (q : Fin 8), 5 ≤ q.val → sol.source I J Kk Dt v q = 0
  inv : ∀ I J Kk U v (q : Fin 8), 5 ≤ q.val → sol.inv I J Kk U v q = U q / g I J
  fix : ∀ I J Kk v (q : Fin 8), 5 ≤ q.val → sol.fix I J Kk v q = v q

/-- Field `P` of the grid is what the ranks hold in their active zones. -/
def ShowsB (S : Setup K) (W : World (Cell K)) (P : FluxCT.BArr K) : Prop :=
  ∀ c1 c2 c3 i j k, Rank S c1 c2 c3 → Act S i j k →
    (W c1 c2 c3 i j k).prim 5 = P.b1 (glob S.cfg.d1 c1 i) (glob S.cfg.d2 c2 j) (glob S.cfg.d3 c3 k) ∧
    (W c1 c2 c3 i j k).prim 6 = P.b2 (glob S.cfg.d1 c1 i) (glob S.cfg.d2 c2 j) (glob S.cfg.d3 c3 k) ∧
    (W c1 c2 c3 i j k).prim 7 = P.b3 (glob S.cfg.d1 c1 i) (glob S.cfg.d2 c2 j) (glob S.cfg.d3 c3 k)

/-- Spacings. -/
def Solver.spacing (sol : Solver K) : FluxCT.Spacing K := ⟨sol.dx 0, sol.dx 1, sol.dx 2⟩

/-- A corner of eight zones of the whole grid, on whichever ranks. -/
def GridCorner (S : Setup K) (I J Kk : ℤ) : Prop :=
  1 ≤ I ∧ I < S.cfg.d1.tot ∧ 1 ≤ J ∧ J < S.cfg.d2.tot ∧ 1 ≤ Kk ∧ Kk < S.cfg.d3.tot

/-- All divergences measured in one state are those measured in the other. -/
def SameDivergence (S : Setup K) (g : ℤ → ℤ → K) (W W' : World (Cell K)) : Prop :=
  ∀ P P', ShowsB S W P → ShowsB S W' P' → ∀ I J Kk, GridCorner S I J Kk →
    FluxCT.divb S.sol.spacing g P' I J Kk = FluxCT.divb S.sol.spacing g P I J Kk

/-! ## Proof -/

/-- The field components of an array of variables. -/
def fieldOf (E : ℤ → ℤ → ℤ → Prim K) : FluxCT.BArr K := ⟨fun I J Kk => E I J Kk 5, fun I J Kk => E I J Kk 6, fun I J Kk => E I J Kk 7⟩

/-- Two arrays with the same field inside the grid have the same divergence at its corners. -/
theorem divb_congr (S : Setup K) (g : ℤ → ℤ → K) (P P' : FluxCT.BArr K) (I J Kk : ℤ) (hc : GridCorner S I J Kk)
    (h : ∀ I J Kk, (0 ≤ I ∧ I < S.cfg.d1.tot) → (0 ≤ J ∧ J < S.cfg.d2.tot) → (0 ≤ Kk ∧ Kk < S.cfg.d3.tot) →
      P'.b1 I J Kk = P.b1 I J Kk ∧ P'.b2 I J Kk = P.b2 I J Kk ∧ P'.b3 I J Kk = P.b3 I J Kk) :
    FluxCT.divb S.sol.spacing g P' I J Kk = FluxCT.divb S.sol.spacing g P I J Kk := by
  obtain ⟨h1, h2, h3, h4, h5, h6⟩ := hc
  have k := fun a b c ha hb hc => h (I - a) (J - b) (Kk - c) ha hb hc
  have r1 : ∀ a : ℤ, (a = 0 ∨ a = 1) → 0 ≤ I - a ∧ I - a < S.cfg.d1.tot := by intro a ha; omega
  have r2 : ∀ a : ℤ, (a = 0 ∨ a = 1) → 0 ≤ J - a ∧ J - a < S.cfg.d2.tot := by intro a ha; omega
  have r3 : ∀ a : ℤ, (a = 0 ∨ a = 1) → 0 ≤ Kk - a ∧ Kk - a < S.cfg.d3.tot := by intro a ha; omega
  have k000 := k 0 0 0 (r1 _ (by simp)) (r2 _ (by simp)) (r3 _ (by simp))
  have k001 := k 0 0 1 (r1 _ (by simp)) (r2 _ (by simp)) (r3 _ (by simp))
  have k010 := k 0 1 0 (r1 _ (by simp)) (r2 _ (by simp)) (r3 _ (by simp))
  have k011 := k 0 1 1 (r1 _ (by simp)) (r2 _ (by simp)) (r3 _ (by simp))
  have k100 := k 1 0 0 (r1 _ (by simp)) (r2 _ (by simp)) (r3 _ (by simp))
  have k101 := k 1 0 1 (r1 _ (by simp)) (r2 _ (by simp)) (r3 _ (by simp))
  have k110 := k 1 1 0 (r1 _ (by simp)) (r2 _ (by simp)) (r3 _ (by simp))
  have k111 := k 1 1 1 (r1 _ (by simp)) (r2 _ (by simp)) (r3 _ (by simp))
  simp only [sub_zero] at k000 k001 k010 k011 k100 k101 k110 k111
  unfold FluxCT.divb
  simp only [k000, k001, k010, k011, k100, k101, k110, k111]

theorem same_of_shows {S : Setup K} (hS : S.WF) (W : World (Cell K)) (P P' : FluxCT.BArr K) (h : ShowsB S W P) (h' : ShowsB S W P')
    (I J Kk : ℤ) (hI : 0 ≤ I ∧ I < S.cfg.d1.tot) (hJ : 0 ≤ J ∧ J < S.cfg.d2.tot) (hK : 0 ≤ Kk ∧ Kk < S.cfg.d3.tot) :
    P'.b1 I J Kk = P.b1 I J Kk ∧ P'.b2 I J Kk = P.b2 I J Kk ∧ P'.b3 I J Kk = P.b3 I J Kk := by
  obtain ⟨c1, i, q1, a1, z1⟩ := cover_act hS.1 I hI.1 hI.2
  obtain ⟨c2, j, q2, a2, z2⟩ := cover_act hS.2.1 J hJ.1 hJ.2
  obtain ⟨c3, k, q3, a3, z3⟩ := cover_act hS.2.2 Kk hK.1 hK.2
  have := h c1 c2 c3 i j k ⟨q1, q2, q3⟩ ⟨a1, a2, a3⟩
  have := h' c1 c2 c3 i j k ⟨q1, q2, q3⟩ ⟨a1, a2, a3⟩
  rw [z1, z2, z3] at *
  aesop

theorem SameDivergence.refl {S : Setup K} (hS : S.WF) (g : ℤ → ℤ → K) (W : World (Cell K)) : SameDivergence S g W W := by
  intro P P' h h' I J Kk hc
  exact divb_congr S g P P' I J Kk hc (fun I J Kk a b c => same_of_shows hS W P P' h h' I J Kk a b c)

theorem showsB_of_shows {S : Setup K} (W : World (Cell K)) (E : ℤ → ℤ → ℤ → Prim K) (h : Shows S W E) : ShowsB S W (fieldOf E) := by
  intro c1 c2 c3 i j k r a
  rw [h c1 c2 c3 i j k r a]
  exact ⟨rfl, rfl, rfl⟩

theorem SameDivergence.trans {S : Setup K} (hS : S.WF) (g : ℤ → ℤ → K) {W W' W'' : World (Cell K)} (h : SameDivergence S g W W')
    (h' : SameDivergence S g W' W'') : SameDivergence S g W W'' := by
  intro P P'' a b I J Kk hc
  obtain ⟨E, hE⟩ := exists_shows hS W'
  rw [h' _ P'' (showsB_of_shows _ E hE) b I J Kk hc, h P _ a (showsB_of_shows _ E hE) I J Kk hc]

/-- Same field in active zones. -/
def SameField (S : Setup K) (W W' : World (Cell K)) : Prop :=
  ∀ c1 c2 c3 i j k, Rank S c1 c2 c3 → Act S i j k → ∀ q : Fin 8, 5 ≤ q.val → (W' c1 c2 c3 i j k).prim q = (W c1 c2 c3 i j k).prim q

theorem SameField.divergence {S : Setup K} (hS : S.WF) (g : ℤ → ℤ → K) {W W' : World (Cell K)} (h : SameField S W W') : SameDivergence S g W W' := by
  intro P P' a b I J Kk hc
  refine SameDivergence.refl hS g W P P' a ?_ I J Kk hc
  intro c1 c2 c3 i j k r z
  have := b c1 c2 c3 i j k r z
  have e := h c1 c2 c3 i j k r z
  rw [e 5 (by decide), e 6 (by decide), e 7 (by decide)] at this
  exact this

theorem fixup_field {S : Setup K} {g : ℤ → ℤ → K} (hl : FieldLaws S.sol g) (W : World (Cell K)) (c1 c2 c3 i j k : ℤ) (q : Fin 8)
    (hq : 5 ≤ q.val) : (fixup S W c1 c2 c3 i j k).prim q = (W c1 c2 c3 i j k).prim q := by
  unfold fixup
  split_ifs
  · exact hl.fix _ _ _ _ _ hq
  · rfl

theorem repair_field {S : Setup K} {g : ℤ → ℤ → K} (hl : FieldLaws S.sol g) (W : World (Cell K)) (c1 c2 c3 i j k : ℤ) (q : Fin 8)
    (hq : 5 ≤ q.val) : (repair S W c1 c2 c3 i j k).prim q = (W c1 c2 c3 i j k).prim q := by
  unfold repair
  simp only
  split
  · rfl
  · have : ¬ q.val < 5 := by omega
    split_ifs
    · rw [fixup_field hl _ _ _ _ _ _ _ _ hq]
      simp [this]
    all_goals simp [this]

theorem bound_field {S : Setup K} (hS : S.WF) (W W' : World (Cell K)) (hb : bound S W = some W') : SameField S W W' := by
  obtain ⟨E, h1, h2⟩ := bound_any hS W W' hb
  intro c1 c2 c3 i j k r a q _
  rw [h1 c1 c2 c3 i j k r (all_of_act a.1) (all_of_act a.2.1) (all_of_act a.2.2), h2 c1 c2 c3 i j k r a]

/-- A pass keeps the divergence of the state it starts from. -/
theorem advance_divergence {S : Setup K} (hS : S.WF) {g : ℤ → ℤ → K} (hl : FieldLaws S.sol g) (st : ℤ → ℤ → ℤ → Stale K) (Dt : K)
    (Wi Wb Wf : World (Cell K)) (Ei Eb : ℤ → ℤ → ℤ → Prim K) (hi : HoldsE S Wi Ei) (hb : HoldsE S Wb Eb) :
    SameDivergence S g Wi (advance S st Dt Wi Wb Wf) := by
  have hsI : Shows S Wi Ei := fun c1 c2 c3 i j k r a => hi c1 c2 c3 i j k r (all_of_act a.1) (all_of_act a.2.1) (all_of_act a.2.2)
  have hw := advance_whole hS st Dt Wi Wb Wf Ei Eb hi hb
  set R := rankAdvance S.sol S.whole zeroOrigin S.sol.noIn Dt Ei Eb blank with hR
  have hsF : Shows S (advance S st Dt Wi Wb Wf) (fun I J Kk => (R I J Kk).prim) := by
    intro c1 c2 c3 i j k r a
    rw [hw c1 c2 c3 i j k r.1 r.2.1 r.2.2 a.1 a.2.1 a.2.2]
  intro P P' hP hP' I J Kk hc
  rw [SameDivergence.refl hS g _ _ P' (showsB_of_shows _ _ hsF) hP' I J Kk hc,
    ← SameDivergence.refl hS g _ P _ hP (showsB_of_shows _ _ hsI) I J Kk hc]
  set F := (if S.sol.mks then fixFlux S.whole S.sol.noIn (rawFlux S.sol S.whole zeroOrigin Eb blank.F) else rawFlux S.sol S.whole zeroOrigin Eb blank.F)
    with hF
  have hcorner : FluxCT.InteriorCorner S.whole I J Kk := by
    obtain ⟨h1, h2, h3, h4, h5, h6⟩ := hc
    exact ⟨h1, by simp only [Setup.whole]; omega, h3, by simp only [Setup.whole]; omega, h5, by simp only [Setup.whole]; omega⟩
  rw [← FluxCT.advance_divb S.whole S.sol.spacing Dt g hl.g_ne (fieldOf Ei) (fieldOf Ei) (magnetic F) (blank (K := K)).emf I J Kk hcorner]
  apply divb_congr S g _ _ I J Kk hc
  intro I J Kk hI hJ hK
  have box : FluxCT.inBox 0 (S.whole.n1 - 1) 0 (S.whole.n2 - 1) 0 (S.whole.n3 - 1) I J Kk = true := by
    rw [FluxCT.inBox_eq_true]; simp only [Setup.whole]; omega
  have flux : rankFlux S.sol S.whole zeroOrigin S.sol.noIn Eb blank = withB F (FluxCT.fluxCT S.whole (magnetic F) (blank (K := K)).emf) := rfl
  have comp : ∀ q : Fin 8, 5 ≤ q.val → (R I J Kk).prim q = newU S.sol zeroOrigin Dt Ei Eb (withB F (FluxCT.fluxCT S.whole (magnetic F) (blank (K := K)).emf)) I J Kk q / g I J := by
    intro q hq
    rw [hR]
    unfold rankAdvance
    rw [flux]
    simp only
    rw [hl.inv _ _ _ _ _ _ hq]
    simp only [zeroOrigin, zero_add]
  refine ⟨?_, ?_, ?_⟩
  · simp only [fieldOf, FluxCT.advanceB, box, if_true]
    rw [comp 5 (by decide)]
    simp only [newU, Conserve.updZone, FluxCT.bZone, hl.cons _ _ _ _ 5 (by decide), hl.source _ _ _ _ _ 5 (by decide), withB, zeroOrigin, zero_add, Solver.spacing]
    rfl
  · simp only [fieldOf, FluxCT.advanceB, box, if_true]
    rw [comp 6 (by decide)]
    simp only [newU, Conserve.updZone, FluxCT.bZone, hl.cons _ _ _ _ 6 (by decide), hl.source _ _ _ _ _ 6 (by decide), withB, zeroOrigin, zero_add, Solver.spacing]
    rfl
  · simp only [fieldOf, FluxCT.advanceB, box, if_true]
    rw [comp 7 (by decide)]
    simp only [newU, Conserve.updZone, FluxCT.bZone, hl.cons _ _ _ _ 7 (by decide), hl.source _ _ _ _ _ 7 (by decide), withB, zeroOrigin, zero_add, Solver.spacing]
    rfl

theorem pass_divergence {S : Setup K} (hS : S.WF) {g : ℤ → ℤ → K} (hl : FieldLaws S.sol g) (st : ℤ → ℤ → ℤ → Stale K) (Dt : K)
    (Wi Wb Wf W' : World (Cell K)) (Ei Eb : ℤ → ℤ → ℤ → Prim K) (hi : HoldsE S Wi Ei) (hb : HoldsE S Wb Eb)
    (hbd : bound S (repair S (fixup S (advance S st Dt Wi Wb Wf))) = some W') : SameDivergence S g Wi W' := by
  refine SameDivergence.trans hS g (advance_divergence hS hl st Dt Wi Wb Wf Ei Eb hi hb) (SameField.divergence hS g ?_)
  intro c1 c2 c3 i j k r a q hq
  rw [bound_field hS _ _ hbd c1 c2 c3 i j k r a q hq, repair_field hl _ _ _ _ _ _ _ _ hq, fixup_field hl _ _ _ _ _ _ _ _ hq]

/-- **C127 (whole runs on the whole grid).** For every division of the grid, every choice of boundaries for which the run goes on, every
solver that treats the field as the code's does, arbitrary other physics, arbitrary leftovers, failed recoveries and repairs
included: after any number of steps the divergence at every corner inside the grid, also where two, four or eight ranks meet, is
the one of the initial state. -/
theorem C127_divergence (S : Setup K) (hS : S.WF) (g : ℤ → ℤ → K) (hl : FieldLaws S.sol g) (W0 : World (Cell K)) (dt t : K)
    (ms : List (Mem K)) (s : State K) (hrun : run S W0 dt t ms = some s) : SameDivergence S g W0 s.W := by
  have key : ∀ (ms : List (Mem K)) (s0 s : State K), (∃ E, HoldsE S s0.W E) → ms.foldlM (fun s m => step S m s) s0 = some s →
      SameDivergence S g s0.W s.W := by
    intro ms
    induction ms with
    | nil =>
      intro s0 s _ h
      simp only [List.foldlM_nil, Option.pure_def, Option.some.injEq] at h
      subst h
      exact SameDivergence.refl hS g _
    | cons m ms ih =>
      rintro s0 s ⟨E, hE⟩ h
      simp only [List.foldlM_cons, Option.bind_eq_bind, Option.bind_eq_some_iff] at h
      obtain ⟨s1, h1, h2⟩ := h
      unfold step at h1
      simp only [Option.bind_eq_some_iff, Option.map_eq_some_iff] at h1
      obtain ⟨Wh, e1, W', e2, rfl⟩ := h1
      obtain ⟨Eh, hEh, -⟩ := bound_any hS _ _ e1
      obtain ⟨E', hE', -⟩ := bound_any hS _ _ e2
      exact SameDivergence.trans hS g (pass_divergence hS hl _ _ _ _ _ _ E Eh hE hEh e2) (ih _ s ⟨E', hE'⟩ h2)
  unfold run at hrun
  simp only [Option.bind_eq_some_iff] at hrun
  obtain ⟨W1, e1, h⟩ := hrun
  obtain ⟨E, hE, -⟩ := bound_any hS _ _ e1
  refine SameDivergence.trans hS g (SameField.divergence hS g ?_) (key ms _ s ⟨E, hE⟩ h)
  intro c1 c2 c3 i j k r a q hq
  rw [bound_field hS _ _ e1 c1 c2 c3 i j k r a q hq, fixup_field hl _ _ _ _ _ _ _ _ hq]

/-- **C127 (half steps).** The half-step state, from which fluxes, radiation and diagnostics are computed, has the same divergence. -/
theorem C127_half_step (S : Setup K) (hS : S.WF) (g : ℤ → ℤ → K) (hl : FieldLaws S.sol g) (W0 : World (Cell K)) (dt t : K)
    (ms : List (Mem K)) (s : State K) (hrun : run S W0 dt t ms = some s) (m : Mem K) (Wh : World (Cell K))
    (hh : bound S (repair S (fixup S (advance S m.pre ((1/2) * s.dt) s.W s.W (flagged m.half s.W)))) = some Wh) : SameDivergence S g W0 Wh := by
  have hE : ∃ E, HoldsE S s.W E := by
    unfold run at hrun
    simp only [Option.bind_eq_some_iff] at hrun
    obtain ⟨W1, e1, h⟩ := hrun
    obtain ⟨E, hE, -⟩ := bound_any hS _ _ e1
    clear hh
    generalize hs0 : (⟨W1, dt, t⟩ : State K) = s0 at h
    have h0 : ∃ E, HoldsE S s0.W E := ⟨E, by rw [← hs0]; exact hE⟩
    clear hs0 e1 hE
    induction ms generalizing s0 with
    | nil =>
      simp only [List.foldlM_nil, Option.pure_def, Option.some.injEq] at h
      rw [← h]; exact h0
    | cons m ms ih =>
      simp only [List.foldlM_cons, Option.bind_eq_bind, Option.bind_eq_some_iff] at h
      obtain ⟨s1, h1, h2⟩ := h
      unfold step at h1
      simp only [Option.bind_eq_some_iff, Option.map_eq_some_iff] at h1
      obtain ⟨Wh, e1, W', e2, rfl⟩ := h1
      obtain ⟨E', hE', -⟩ := bound_any hS _ _ e2
      exact ih _ h2 ⟨E', hE'⟩
  obtain ⟨E, hE⟩ := hE
  exact SameDivergence.trans hS g (C127_divergence S hS g hl W0 dt t ms s hrun) (pass_divergence hS hl _ _ _ _ _ _ E E hE hE hh)

/-! ## A case -/

/-- Advection of everything, field included, along all directions. -/
def swirl : Solver ℚ where
  num d _ _ _ v := fun q => if q = 5 then v 2 6 else if q = 6 then v 3 5 * (d.val + 1) else v 2 q
  speed _ _ _ _ _ := 1
  source _ _ _ _ _ := fun _ => 0
  cons _ _ _ v := v
  inv _ _ _ U _ := U
  flag _ _ _ U _ := if U 0 = 0 then 1 else 0
  fix _ _ _ v := v
  inflow _ _ _ v := v
  dx _ := 1
  next _ _ _ dt _ := dt
  mks := false
  noIn := ⟨true, true, true, true⟩

/-- Two ranks side by side. -/
def twoRanks : Setup ℚ :=
  ⟨⟨⟨3, 2, .periodic, .periodic⟩, ⟨2, 1, .outflow, .outflow⟩, ⟨2, 1, .outflow, .outflow⟩, fun _ _ => 1, fun _ _ _ => ⟨fun _ => 0, 0⟩,
    fun _ _ _ => ⟨fun _ => 0, 0⟩⟩, swirl⟩

theorem twoRanks_wf : twoRanks.WF := by
  refine ⟨⟨by simp [twoRanks], by simp [twoRanks], by simp [twoRanks], by simp [twoRanks, NG]⟩,
    ⟨by simp [twoRanks], by simp [twoRanks], by simp [twoRanks], by simp [twoRanks, Dim.periodic]⟩,
    ⟨by simp [twoRanks], by simp [twoRanks], by simp [twoRanks], by simp [twoRanks, Dim.periodic]⟩⟩

theorem swirl_laws : FieldLaws swirl (fun _ _ => 1) :=
  ⟨fun _ _ => one_ne_zero, fun _ _ _ _ _ _ => (one_mul _).symm, fun _ _ _ _ _ _ _ => rfl, fun _ _ _ _ _ _ _ => (div_one _).symm, fun _ _ _ _ _ _ => rfl⟩

/-- A field that varies. -/
def wavy : World (Cell ℚ) := fun c1 _ _ i j k => ⟨fun q => ((c1 * 3 + i) * (j + q.val) + k * k : ℤ), 0⟩

/-- The corner where the two ranks meet is inside the grid, the run completes, and the field does change. -/
example : GridCorner twoRanks 3 1 1 ∧ (run twoRanks wavy (1/2) 0 [mem0]).isSome ∧
    ((run twoRanks wavy (1/2) 0 [mem0]).map fun s => decide ((s.W 0 0 0 5 4 4).prim 5 = (wavy 0 0 0 5 4 4).prim 5)) = some false := by
  refine ⟨by simp [GridCorner, twoRanks, Dim.tot], ?_, ?_⟩ <;> decide +kernel

example (ms : List (Mem ℚ)) (s : State ℚ) (h : run twoRanks wavy (1/2) 0 ms = some s) : SameDivergence twoRanks (fun _ _ => 1) wavy s.W :=
  C127_divergence twoRanks twoRanks_wf _ swirl_laws wavy _ _ ms s h

end Nubhlight.FluidStep
