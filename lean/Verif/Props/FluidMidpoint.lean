import Verif.Props.FluidBudget

set_option autoImplicit false
set_option linter.unusedSectionVars false

/-! # C129: a step is the midpoint rule -/

namespace Nubhlight.FluidStep

open Bounds Inflow

variable {K : Type*} [Field K] [LinearOrder K] [IsStrictOrderedRing K]

/-! ## Specification -/

/-- Rate of change of the conserved variables of the undivided grid with variables `E` (ghost zones included): what enters through the faces,
and the source. -/
def rate (S : Setup K) (Dt : K) (E : ℤ → ℤ → ℤ → Prim K) (I J Kk : ℤ) : Prim K := fun q =>
  let F := rankFlux S.sol S.whole zeroOrigin S.sol.noIn E blank
  (F.1 I J Kk q - F.1 (I + 1) J Kk q) / S.sol.dx 0 + (F.2.1 I J Kk q - F.2.1 I (J + 1) Kk q) / S.sol.dx 1
    + (F.2.2 I J Kk q - F.2.2 I J (Kk + 1) q) / S.sol.dx 2 + S.sol.source I J Kk Dt (E I J Kk) q

/-- A zone of the grid. -/
def InGrid (S : Setup K) (I J Kk : ℤ) : Prop :=
  (0 ≤ I ∧ I < S.cfg.d1.tot) ∧ (0 ≤ J ∧ J < S.cfg.d2.tot) ∧ (0 ≤ Kk ∧ Kk < S.cfg.d3.tot)

/-- A step in which nothing needs repair or floors. -/
def PlainStep (S : Setup K) (m : Mem K) (s : State K) : Prop :=
  Recovered S (advance S m.pre ((1/2) * s.dt) s.W s.W (flagged m.half s.W)) ∧
  Unfloored S (advance S m.pre ((1/2) * s.dt) s.W s.W (flagged m.half s.W)) ∧ QuietStep S m s

/-! ## Proof -/

/-- A pass adds `Dt` times the rate. -/
theorem pass_rate {S : Setup K} (hS : S.WF) (hx : ExactRecovery S.sol) (st : ℤ → ℤ → ℤ → Stale K) (Dt : K)
    (Wi Wb Wf : World (Cell K)) (Gi Gb : ℤ → ℤ → ℤ → Prim K) (hi : Holds S Wi Gi) (hb : Holds S Wb Gb)
    (hc : Recovered S (advance S st Dt Wi Wb Wf)) (hf : Unfloored S (advance S st Dt Wi Wb Wf)) (G' : ℤ → ℤ → ℤ → Prim K)
    (hG' : Shows S (repair S (fixup S (advance S st Dt Wi Wb Wf))) G') (I J Kk : ℤ) (hI : InGrid S I J Kk) (q : Fin 8) :
    S.sol.cons I J Kk (G' I J Kk) q = S.sol.cons I J Kk (Gi I J Kk) q + Dt * rate S Dt (ext S Gb) I J Kk q := by
  obtain ⟨c1, i, q1, a1, z1⟩ := cover_act hS.1 I hI.1.1 hI.1.2
  obtain ⟨c2, j, q2, a2, z2⟩ := cover_act hS.2.1 J hI.2.1.1 hI.2.1.2
  obtain ⟨c3, k, q3, a3, z3⟩ := cover_act hS.2.2 Kk hI.2.2.1 hI.2.2.2
  have r : Rank S c1 c2 c3 := ⟨q1, q2, q3⟩
  have a : Act S i j k := ⟨a1, a2, a3⟩
  have e := hG' c1 c2 c3 i j k r a
  have ei := shows_of_holds hS Wi Gi hi c1 c2 c3 i j k r a
  have ei' := hi c1 c2 c3 i j k r (all_of_act a1) (all_of_act a2) (all_of_act a3)
  have hflag := hc c1 c2 c3 i j k r a
  rw [repair_clean hS _ (fixup_recovered _ hc) r i j k, hf c1 c2 c3 i j k r a] at e
  have hw := advance_passed hS st Dt Wi Wb Wf Gi Gb hi hb c1 c2 c3 i j k q1 q2 q3 a1 a2 a3
  rw [hw] at e hflag
  rw [z1, z2, z3] at e ei ei' hflag
  have eg : ext S Gi I J Kk = Gi I J Kk := by rw [← ei', ei]
  rw [← e]
  unfold passed rankAdvance at hflag ⊢
  simp only [zeroOrigin, zero_add] at hflag ⊢
  rw [hx _ _ _ _ _ hflag]
  unfold newU Conserve.updZone rate
  simp only [zero_add, eg, zeroOrigin]
  ring

/-- **C129 (midpoint rule).** In a step without repairs and floors, on any division and with arbitrary leftovers in memory, the conserved
variables of every zone of the grid advance to the half step with the rates of the old state, and over the full step, again from the old state,
with the rates of the half-step state. -/
theorem C129_midpoint (S : Setup K) (hS : S.WF) (hout : NoUpperOutflow S) (hx : ExactRecovery S.sol) (m : Mem K) (s s' : State K)
    (G : ℤ → ℤ → ℤ → Prim K) (hG : Holds S s.W G) (hq : PlainStep S m s) (h : step S m s = some s')
    (Gh : ℤ → ℤ → ℤ → Prim K) (hGh : ∀ I J Kk, InGrid S I J Kk → S.sol.inv I J Kk
        (fun q => S.sol.cons I J Kk (G I J Kk) q + (1/2) * s.dt * rate S ((1/2) * s.dt) (ext S G) I J Kk q) (G I J Kk) = Gh I J Kk)
    (G' : ℤ → ℤ → ℤ → Prim K) (hG' : Shows S s'.W G') (I J Kk : ℤ) (hI : InGrid S I J Kk) (q : Fin 8) :
    S.sol.cons I J Kk (G' I J Kk) q = S.sol.cons I J Kk (G I J Kk) q + s.dt * rate S s.dt (ext S Gh) I J Kk q := by
  unfold step at h
  simp only [Option.bind_eq_some_iff, Option.map_eq_some_iff] at h
  obtain ⟨Wh, e1, W', e2, rfl⟩ := h
  obtain ⟨hc, hf, hq⟩ := hq
  obtain ⟨hc', hf'⟩ := hq Wh e1
  have hsh : Shows S (repair S (fixup S (advance S m.pre ((1/2) * s.dt) s.W s.W (flagged m.half s.W)))) Gh := by
    intro c1 c2 c3 i j k r a
    have g1 := glob_inside _ hS.1 _ _ r.1 a.1
    have g2 := glob_inside _ hS.2.1 _ _ r.2.1 a.2.1
    have g3 := glob_inside _ hS.2.2 _ _ r.2.2 a.2.2
    have ei := shows_of_holds hS s.W G hG c1 c2 c3 i j k r a
    have ei' := hG c1 c2 c3 i j k r (all_of_act a.1) (all_of_act a.2.1) (all_of_act a.2.2)
    rw [repair_clean hS _ (fixup_recovered _ hc) r i j k, hf c1 c2 c3 i j k r a,
      advance_passed hS _ _ _ _ _ G G hG hG c1 c2 c3 i j k r.1 r.2.1 r.2.2 a.1 a.2.1 a.2.2, ← hGh _ _ _ ⟨g1, g2, g3⟩]
    rw [ei] at ei'
    unfold passed rankAdvance
    simp only [zeroOrigin, zero_add]
    rw [← ei']
    congr 1
    funext q
    unfold newU Conserve.updZone rate
    simp only [zero_add, ← ei', zeroOrigin]
    ring
  have hh := bound_holds hS hout _ _ Gh hsh e1
  refine pass_rate hS hx _ _ s.W Wh _ G Gh hG hh hc' hf' G' ?_ I J Kk hI q
  intro c1 c2 c3 i j k r a
  rw [← hG' c1 c2 c3 i j k r a]
  exact (bound_act hS _ _ e2 c1 c2 c3 i j k r a).symm

/-- **C129 (second order in time).** If the rates are a linear operator of the variables, a step is the Taylor series of the solution up
to and including the second order. -/
theorem C129_second_order (S : Setup K) (hS : S.WF) (hout : NoUpperOutflow S) (hcons : ∀ I J Kk v, S.sol.cons I J Kk v = v)
    (hinv : ∀ I J Kk U v, S.sol.inv I J Kk U v = U) (L : (ℤ → ℤ → ℤ → Prim K) →ₗ[K] (ℤ → ℤ → ℤ → Prim K))
    (hL : ∀ Dt G I J Kk, InGrid S I J Kk → rate S Dt (ext S G) I J Kk = L G I J Kk) (m : Mem K) (s s' : State K)
    (G : ℤ → ℤ → ℤ → Prim K) (hG : Holds S s.W G) (hq : PlainStep S m s) (h : step S m s = some s') :
    Shows S s'.W (G + s.dt • L G + (s.dt ^ 2 / 2) • L (L G)) := by
  obtain ⟨G', hG'⟩ := exists_shows hS s'.W
  intro c1 c2 c3 i j k r a
  have g1 := glob_inside _ hS.1 _ _ r.1 a.1
  have g2 := glob_inside _ hS.2.1 _ _ r.2.1 a.2.1
  have g3 := glob_inside _ hS.2.2 _ _ r.2.2 a.2.2
  rw [hG' c1 c2 c3 i j k r a]
  funext q
  have := C129_midpoint S hS hout (fun I J Kk U v _ => by rw [hcons, hinv]) m s s' G hG hq h (G + ((1/2) * s.dt) • L G) (by
    intro I J Kk hI
    rw [hinv]
    funext q
    rw [hcons, hL _ _ _ _ _ hI]
    rfl) G' hG' _ _ _ ⟨g1, g2, g3⟩ q
  rw [hcons, hcons, hL _ _ _ _ _ ⟨g1, g2, g3⟩, map_add, map_smul] at this
  rw [this]
  simp only [Pi.add_apply, Pi.smul_apply, smul_eq_mul]
  ring

/-- Every state of a run is one the theorems above apply to. -/
theorem run_holds {S : Setup K} (hS : S.WF) (hout : NoUpperOutflow S) (W0 : World (Cell K)) (dt t : K) (ms : List (Mem K)) (s : State K)
    (h : run S W0 dt t ms = some s) : ∃ G, Holds S s.W G := by
  have key : ∀ (ms : List (Mem K)) (s0 : State K), (∃ G, Holds S s0.W G) → ms.foldlM (fun s m => step S m s) s0 = some s → ∃ G, Holds S s.W G := by
    intro ms
    induction ms with
    | nil =>
      intro s0 h0 h
      simp only [List.foldlM_nil, Option.pure_def, Option.some.injEq] at h
      rw [← h]; exact h0
    | cons m ms ih =>
      intro s0 _ h
      simp only [List.foldlM_cons, Option.bind_eq_bind, Option.bind_eq_some_iff] at h
      obtain ⟨s1, h1, h2⟩ := h
      unfold step at h1
      simp only [Option.bind_eq_some_iff, Option.map_eq_some_iff] at h1
      obtain ⟨Wh, e1, W', e2, rfl⟩ := h1
      obtain ⟨G, hG⟩ := exists_shows hS (repair S (fixup S (advance S m.cor s0.dt s0.W Wh (flagged s0.W Wh))))
      exact ih _ ⟨G, bound_holds hS hout _ _ G hG e2⟩ h2
  unfold run at h
  simp only [Option.bind_eq_some_iff] at h
  obtain ⟨W1, e1, h⟩ := h
  obtain ⟨G, hG⟩ := exists_shows hS (fixup S W0)
  exact key ms _ ⟨G, bound_holds hS hout _ _ G hG e1⟩ h

/-! ## A case -/

/-- Upwind advection of the fluid variables along the first direction, unit speed, no field. -/
def upwind : Solver ℚ where
  num d _ _ _ v := fun q => if d = 0 ∧ q.val < 5 then v 2 q else 0
  speed _ _ _ _ _ := 1
  source _ _ _ _ _ := fun _ => 0
  cons _ _ _ v := v
  inv _ _ _ U _ := U
  flag _ _ _ _ _ := 0
  fix _ _ _ v := v
  inflow _ _ _ v := v
  dx _ := 1
  next _ _ _ dt _ := dt
  mks := false
  noIn := ⟨true, true, true, true⟩

/-- A ring of six zones on two ranks. -/
def ring6 : Setup ℚ :=
  ⟨⟨⟨3, 2, .periodic, .periodic⟩, ⟨1, 1, .periodic, .periodic⟩, ⟨1, 1, .periodic, .periodic⟩, fun _ _ => 1, fun _ _ _ => ⟨fun _ => 0, 0⟩,
    fun _ _ _ => ⟨fun _ => 0, 0⟩⟩, upwind⟩

theorem ring6_wf : ring6.WF := by
  refine ⟨⟨by simp [ring6], by simp [ring6], by simp [ring6], by simp [ring6, NG]⟩,
    ⟨by simp [ring6], by simp [ring6], by simp [ring6], by simp [ring6, Dim.periodic]⟩,
    ⟨by simp [ring6], by simp [ring6], by simp [ring6], by simp [ring6, Dim.periodic]⟩⟩

theorem ring6_box : PeriodicBox ring6 :=
  ⟨⟨rfl, rfl⟩, ⟨rfl, rfl⟩, ⟨rfl, rfl⟩, rfl, fun _ _ _ _ _ => rfl, fun _ _ _ _ _ => rfl, fun _ _ _ _ _ => rfl⟩

/-- The rate: left neighbour on the ring minus zone. -/
def ringRate : (ℤ → ℤ → ℤ → Prim ℚ) →ₗ[ℚ] (ℤ → ℤ → ℤ → Prim ℚ) where
  toFun G := fun I J Kk q => if q.val < 5 then G (src ring6.cfg.d1 (I - 1)) (src ring6.cfg.d2 J) (src ring6.cfg.d3 Kk) q -
    G (src ring6.cfg.d1 I) (src ring6.cfg.d2 J) (src ring6.cfg.d3 Kk) q else 0
  map_add' G H := by
    funext I J Kk q
    simp only [Pi.add_apply]
    split_ifs <;> ring
  map_smul' c G := by
    funext I J Kk q
    simp only [Pi.smul_apply, smul_eq_mul, RingHom.id_apply]
    split_ifs <;> ring

theorem ring6_rate (Dt : ℚ) (G : ℤ → ℤ → ℤ → Prim ℚ) (I J Kk : ℤ) (hI : InGrid ring6 I J Kk) : rate ring6 Dt (ext ring6 G) I J Kk = ringRate G I J Kk := by
  funext q
  have w1 : ring6.whole.n1 = 6 := rfl
  have w2 : ring6.whole.n2 = 1 := rfl
  have w3 : ring6.whole.n3 = 1 := rfl
  have t1 : ring6.cfg.d1.tot = 6 := rfl
  have t2 : ring6.cfg.d2.tot = 1 := rfl
  have t3 : ring6.cfg.d3.tot = 1 := rfl
  obtain ⟨⟨i0, i1⟩, ⟨j0, j1⟩, ⟨k0, k1⟩⟩ := hI
  set F := rawFlux ring6.sol ring6.whole zeroOrigin (ext ring6 G) (blank (K := ℚ)).F with hF
  have hflux : rankFlux ring6.sol ring6.whole zeroOrigin ring6.sol.noIn (ext ring6 G) blank = withB F (FluxCT.fluxCT ring6.whole (magnetic F) (blank (K := ℚ)).emf) := rfl
  have zero : ∀ I J Kk (q : Fin 8), 5 ≤ q.val → F.1 I J Kk q = 0 ∧ F.2.1 I J Kk q = 0 ∧ F.2.2 I J Kk q = 0 := by
    intro I J Kk q hq
    have : ¬ q.val < 5 := by omega
    refine ⟨?_, ?_, ?_⟩ <;> simp only [hF, rawFlux] <;> split <;> simp [ring6, upwind, blank, this]
  have z5 := fun I J Kk => zero I J Kk 5 (by decide)
  have z6 := fun I J Kk => zero I J Kk 6 (by decide)
  have z7 := fun I J Kk => zero I J Kk 7 (by decide)
  have ez : ∀ I J Kk, (FluxCT.emfCalc ring6.whole (magnetic F) (blank (K := ℚ)).emf).e1 I J Kk = 0 ∧
      (FluxCT.emfCalc ring6.whole (magnetic F) (blank (K := ℚ)).emf).e2 I J Kk = 0 ∧ (FluxCT.emfCalc ring6.whole (magnetic F) (blank (K := ℚ)).emf).e3 I J Kk = 0 := by
    intro I J Kk
    refine ⟨?_, ?_, ?_⟩ <;> simp [FluxCT.emfCalc, magnetic, z5, z6, z7, blank]
  have f1 : ∀ I, 0 ≤ I → I ≤ 6 → ∀ q : Fin 8, q.val < 5 → F.1 I J Kk q = ext ring6 G (I - 1) J Kk q := by
    intro I h0 h1 q hq
    have b : FluxCT.inBox 0 ring6.whole.n1 (-1) ring6.whole.n2 (-1) ring6.whole.n3 I J Kk = true := by rw [FluxCT.inBox_eq_true]; omega
    simp only [hF, rawFlux, b, if_true]
    simp only [ring6, upwind, hq, and_self, if_true]
    congr 1
    show I - 3 + (2 : ℤ) = I - 1
    ring
  have f2 : ∀ I J Kk q, F.2.1 I J Kk q = 0 ∧ F.2.2 I J Kk q = 0 := by
    intro I J Kk q
    refine ⟨?_, ?_⟩ <;> simp only [hF, rawFlux] <;> split <;> simp [ring6, upwind, blank]
  unfold rate
  simp only [hflux]
  by_cases hq : q.val < 5
  · have n5 : q ≠ 5 := by rintro rfl; exact absurd hq (by decide)
    have n6 : q ≠ 6 := by rintro rfl; exact absurd hq (by decide)
    have n7 : q ≠ 7 := by rintro rfl; exact absurd hq (by decide)
    simp only [withB, n5, n6, n7, if_false, (f2 _ _ _ _).1, (f2 _ _ _ _).2]
    rw [f1 I (by omega) (by omega) q hq, f1 (I + 1) (by omega) (by omega) q hq]
    simp only [ringRate, LinearMap.coe_mk, AddHom.coe_mk, hq, if_true, ext_periodic ring6_box]
    simp [ring6, upwind]
  · have : q = 5 ∨ q = 6 ∨ q = 7 := by have := q.2; simp only [Fin.ext_iff]; simp; omega
    simp only [ringRate, LinearMap.coe_mk, AddHom.coe_mk, hq, if_false]
    have hs : ring6.sol.source I J Kk Dt (ext ring6 G I J Kk) q = 0 := rfl
    rw [hs]
    rcases this with rfl | rfl | rfl <;> simp only [withB, FluxCT.fluxCT, (ez _ _ _).1, (ez _ _ _).2.1, (ez _ _ _).2.2] <;>
      simp [magnetic, z5, z6, z7]

/-- All hypotheses hold for any run on the ring. -/
example (W0 : World (Cell ℚ)) (dt t : ℚ) (ms : List (Mem ℚ)) (m : Mem ℚ) (s s' : State ℚ) (hr : run ring6 W0 dt t ms = some s) (h : step ring6 m s = some s') :
    ∃ G, Shows ring6 s.W G ∧ Shows ring6 s'.W (G + s.dt • ringRate G + (s.dt ^ 2 / 2) • ringRate (ringRate G)) := by
  obtain ⟨G, hG⟩ := run_holds ring6_wf ring6_box.noOutflow W0 dt t ms s hr
  have hrec : ∀ st Dt (Wi Wb Wf : World (Cell ℚ)), Recovered ring6 (advance ring6 st Dt Wi Wb Wf) := by
    intro st Dt Wi Wb Wf c1 c2 c3 i j k _ ha
    unfold advance
    rw [if_pos (show _ ∧ _ ∧ _ from ha)]
    rfl
  have unf : ∀ W : World (Cell ℚ), Unfloored ring6 W := by
    intro W c1 c2 c3 i j k _ ha
    unfold fixup
    rw [if_pos (show _ ∧ _ ∧ _ from ha)]
    rfl
  exact ⟨G, shows_of_holds ring6_wf _ _ hG, C129_second_order ring6 ring6_wf ring6_box.noOutflow (fun _ _ _ _ => rfl) (fun _ _ _ _ _ => rfl) ringRate
    ring6_rate m s s' G hG ⟨hrec _ _ _ _ _, unf _, fun _ _ => ⟨hrec _ _ _ _ _, unf _⟩⟩ h⟩

end Nubhlight.FluidStep
