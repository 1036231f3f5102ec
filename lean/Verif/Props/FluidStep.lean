import Verif.Props.FluidWindow
import Verif.Props.Bounds
import Verif.Props.FixupUtoprim
import Mathlib.Algebra.Order.Ring.Rat

set_option autoImplicit false
set_option linter.unusedSectionVars false

/-! # C126: the evolution of the fluid does not depend on the division of the grid -/

namespace Nubhlight.FluidStep

open Bounds Inflow

variable {K : Type*} [Field K] [LinearOrder K] [IsStrictOrderedRing K]

/-! ## Specification -/

/-- Divisions the code supports: see `Dim.WF`. -/
def Setup.WF (S : Setup K) : Prop := S.cfg.d1.WF ∧ S.cfg.d2.WF ∧ S.cfg.d3.WF

/-- Same zones and boundaries in a direction. -/
def SameDim (d e : Dim) : Prop := d.tot = e.tot ∧ d.left = e.left ∧ d.right = e.right

/-- Same problem on the same grid, however divided. -/
structure SameProblem (A B : Setup K) : Prop where
  sol : A.sol = B.sol
  d1 : SameDim A.cfg.d1 B.cfg.d1
  d2 : SameDim A.cfg.d2 B.cfg.d2
  d3 : SameDim A.cfg.d3 B.cfg.d3
  gdet : A.cfg.gdet = B.cfg.gdet
  probL : A.cfg.probL = B.cfg.probL
  probR : A.cfg.probR = B.cfg.probR

/-- A rank of the setup. -/
def Rank (S : Setup K) (c1 c2 c3 : ℤ) : Prop :=
  (0 ≤ c1 ∧ c1 < S.cfg.d1.C) ∧ (0 ≤ c2 ∧ c2 < S.cfg.d2.C) ∧ (0 ≤ c3 ∧ c3 < S.cfg.d3.C)

/-- An active zone of a rank. -/
def Act (S : Setup K) (i j k : ℤ) : Prop := act S.cfg.d1 i ∧ act S.cfg.d2 j ∧ act S.cfg.d3 k

/-- Wherever two ranks of the two setups hold the same zone of the grid, they hold the same variables. -/
def SameZones (A B : Setup K) (WA WB : World (Cell K)) : Prop :=
  ∀ a1 a2 a3 b1 b2 b3 i j k i' j' k', Rank A a1 a2 a3 → Rank B b1 b2 b3 → Act A i j k → Act B i' j' k' →
    glob A.cfg.d1 a1 i = glob B.cfg.d1 b1 i' → glob A.cfg.d2 a2 j = glob B.cfg.d2 b2 j' → glob A.cfg.d3 a3 k = glob B.cfg.d3 b3 k' →
    (WA a1 a2 a3 i j k).prim = (WB b1 b2 b3 i' j' k').prim

/-- Every recovery succeeds. -/
def Recovered (S : Setup K) (W : World (Cell K)) : Prop := ∀ c1 c2 c3 i j k, Rank S c1 c2 c3 → Act S i j k → (W c1 c2 c3 i j k).pflag = 0

/-- No recovery fails in a step. -/
def CleanStep (S : Setup K) (m : Mem K) (s : State K) : Prop :=
  Recovered S (advance S m.pre ((1/2) * s.dt) s.W s.W (flagged m.half s.W)) ∧
  ∀ Wh, bound S (repair S (fixup S (advance S m.pre ((1/2) * s.dt) s.W s.W (flagged m.half s.W)))) = some Wh →
    Recovered S (advance S m.cor s.dt s.W Wh (flagged s.W Wh))

/-- No recovery fails in a run. -/
def CleanRun (S : Setup K) (W0 : World (Cell K)) (dt t : K) (ms : List (Mem K)) : Prop :=
  ∀ pre m post s, ms = pre ++ m :: post → run S W0 dt t pre = some s → CleanStep S m s

/-- Two runs that both end abnormally, or both get to the same state. -/
def SameOutcome (A B : Setup K) (a b : Option (State K)) : Prop :=
  (a = none ∧ b = none) ∨ ∃ s s', a = some s ∧ b = some s' ∧ s.dt = s'.dt ∧ s.t = s'.t ∧ SameZones A B s.W s'.W

/-! ## Directions -/

theorem thin_iff {d : Dim} (h : d.WF) : d.N < NG ↔ d.tot < NG := by
  have hN := h.N_pos
  have hC := h.C_pos
  unfold Dim.tot
  constructor
  · intro hlt; rw [(h.thin hlt).1]; omega
  · intro hlt; nlinarith

theorem src_same {d e : Dim} (hd : d.WF) (he : e.WF) (h : SameDim d e) (I : ℤ) : src d I = src e I := by
  obtain ⟨ht, hl, hr⟩ := h
  have hth : d.N < NG ↔ e.N < NG := by rw [thin_iff hd, thin_iff he, ht]
  unfold src
  simp only [hth, ht, hl, hr]

theorem beyond_same {d e : Dim} (hd : d.WF) (he : e.WF) (h : SameDim d e) (I : ℤ) : BeyondPole d I ↔ BeyondPole e I := by
  obtain ⟨ht, hl, hr⟩ := h
  have hth : NG ≤ d.N ↔ NG ≤ e.N := by
    have := thin_iff hd
    have := thin_iff he
    omega
  unfold BeyondPole
  rw [hth, ht, hl, hr]

theorem cover {d : Dim} (h : d.WF) (lo J : ℤ) (hlo : lo = 0 ∨ lo = -1) (h0 : lo ≤ J) (h1 : J ≤ d.tot) :
    ∃ c j, 0 ≤ c ∧ c < d.C ∧ lo ≤ j ∧ j ≤ d.N ∧ c * d.N + j = J := by
  have hN := h.N_pos
  have hC := h.C_pos
  unfold Dim.tot at h1
  by_cases hJ : J < 0
  · exact ⟨0, J, le_refl _, by omega, h0, by omega, by ring⟩
  · by_cases hT : J = d.N * d.C
    · exact ⟨d.C - 1, d.N, by omega, by omega, by omega, le_refl _, by rw [hT]; ring⟩
    · refine ⟨J / d.N, J % d.N, Int.ediv_nonneg (by omega) (by omega), ?_, ?_, ?_, ?_⟩
      · rw [Int.ediv_lt_iff_lt_mul (by omega)]; rw [mul_comm]; omega
      · have := Int.emod_nonneg J (show d.N ≠ 0 by omega); omega
      · have := Int.emod_lt_of_pos J (show 0 < d.N by omega); omega
      · have := Int.mul_ediv_add_emod J d.N; linarith [mul_comm d.N (J / d.N)]

theorem cover_act {d : Dim} (h : d.WF) (J : ℤ) (h0 : 0 ≤ J) (h1 : J < d.tot) :
    ∃ c j, (0 ≤ c ∧ c < d.C) ∧ act d j ∧ glob d c j = J := by
  have hN := h.N_pos
  unfold Dim.tot at h1
  refine ⟨J / d.N, J % d.N + NG, ⟨Int.ediv_nonneg (by omega) (by omega), ?_⟩, ⟨?_, ?_⟩, ?_⟩
  · rw [Int.ediv_lt_iff_lt_mul (by omega)]; rw [mul_comm]; omega
  · have := Int.emod_nonneg J (show d.N ≠ 0 by omega); omega
  · have := Int.emod_lt_of_pos J (show 0 < d.N by omega); omega
  · have := Int.mul_ediv_add_emod J d.N; unfold glob; linarith [mul_comm d.N (J / d.N)]

/-! ## The extended grid -/

/-- Variables in the extended grid, from those of the grid. -/
def ext (S : Setup K) (G : ℤ → ℤ → ℤ → Prim K) (I J Kk : ℤ) : Prim K :=
  let v := (expected S.cfg (fun I J Kk => ⟨G I J Kk, 0⟩) I J Kk).prim
  if S.sol.mks ∧ S.sol.noIn.x1l ∧ I < 0 then S.sol.inflow I J false v
  else if S.sol.mks ∧ S.sol.noIn.x1r ∧ S.cfg.d1.tot ≤ I then S.sol.inflow I J true v
  else v

/-- Active zones hold `G`. -/
def Shows (S : Setup K) (W : World (Cell K)) (G : ℤ → ℤ → ℤ → Prim K) : Prop :=
  ∀ c1 c2 c3 i j k, Rank S c1 c2 c3 → Act S i j k →
    (W c1 c2 c3 i j k).prim = G (glob S.cfg.d1 c1 i) (glob S.cfg.d2 c2 j) (glob S.cfg.d3 c3 k)

/-- All zones hold one extended grid. -/
def HoldsE (S : Setup K) (W : World (Cell K)) (E : ℤ → ℤ → ℤ → Prim K) : Prop :=
  ∀ c1 c2 c3 i j k, Rank S c1 c2 c3 → all S.cfg.d1 i → all S.cfg.d2 j → all S.cfg.d3 k →
    (W c1 c2 c3 i j k).prim = E (glob S.cfg.d1 c1 i) (glob S.cfg.d2 c2 j) (glob S.cfg.d3 c3 k)

/-- All zones hold the extension of `G`. -/
def Holds (S : Setup K) (W : World (Cell K)) (G : ℤ → ℤ → ℤ → Prim K) : Prop := HoldsE S W (ext S G)

theorem expected_prim (cfg : Cfg K) (G : ℤ → ℤ → ℤ → Cell K) (I J Kk : ℤ) :
    (expected cfg G I J Kk).prim = (expected cfg (fun I J Kk => ⟨(G I J Kk).prim, 0⟩) I J Kk).prim := by
  have hr : ∀ J Kk, (radial cfg G I J Kk).prim = (radial cfg (fun I J Kk => ⟨(G I J Kk).prim, 0⟩) I J Kk).prim := by
    intro J Kk
    unfold radial
    simp only
    split_ifs
    · rfl
    · cases cfg.d1.left <;> rfl
    · cases cfg.d1.right <;> rfl
    · rfl
  unfold expected
  simp only
  split_ifs
  · unfold mirrored
    simp only [hr]
  · rw [hr]

theorem ext_same {A B : Setup K} (ha : A.WF) (hb : B.WF) (h : SameProblem A B) (G : ℤ → ℤ → ℤ → Prim K) : ext A G = ext B G := by
  funext I J Kk
  have hr : ∀ J Kk, radial A.cfg (fun I J Kk => ⟨G I J Kk, 0⟩) I J Kk = radial B.cfg (fun I J Kk => ⟨G I J Kk, 0⟩) I J Kk := by
    intro J Kk
    have hth : A.cfg.d1.N < NG ↔ B.cfg.d1.N < NG := by rw [thin_iff ha.1, thin_iff hb.1, h.d1.1]
    unfold radial
    simp only [src_same ha.1 hb.1 h.d1, hth, h.d1.1, h.d1.2.1, h.d1.2.2, h.gdet, h.probL, h.probR]
  have he : expected A.cfg (fun I J Kk => ⟨G I J Kk, 0⟩) I J Kk = expected B.cfg (fun I J Kk => ⟨G I J Kk, 0⟩) I J Kk := by
    unfold expected
    simp only [src_same ha.2.1 hb.2.1 h.d2, src_same ha.2.2 hb.2.2 h.d3, beyond_same ha.2.1 hb.2.1 h.d2, hr]
  unfold ext
  rw [he, h.sol, h.d1.1]

theorem supported_same {A B : Setup K} (ha : A.WF) (hb : B.WF) (h : SameProblem A B) : Supported A.cfg ↔ Supported B.cfg := by
  have hth : ∀ {d e : Dim}, d.WF → e.WF → SameDim d e → (d.N < NG ↔ e.N < NG) := by
    intro d e hd he hs; rw [thin_iff hd, thin_iff he, hs.1]
  unfold Supported
  rw [hth ha.1 hb.1 h.d1, hth ha.2.1 hb.2.1 h.d2, hth ha.2.2 hb.2.2 h.d3, h.d1.2.1, h.d1.2.2, h.d2.2.1, h.d2.2.2, h.d3.2.1, h.d3.2.2]

/-- Upper azimuthal outflow is not used, see C18. -/
def NoUpperOutflow (S : Setup K) : Prop := S.cfg.d3.right = .outflow → S.cfg.d3.N < NG

theorem represents_of_shows {S : Setup K} (hS : S.WF) (W : World (Cell K)) (G : ℤ → ℤ → ℤ → Prim K) (h : Shows S W G) :
    ∃ GC : ℤ → ℤ → ℤ → Cell K, Represents S.cfg W GC ∧
      ∀ I J Kk, (0 ≤ I ∧ I < S.cfg.d1.tot) → (0 ≤ J ∧ J < S.cfg.d2.tot) → (0 ≤ Kk ∧ Kk < S.cfg.d3.tot) → (GC I J Kk).prim = G I J Kk := by
  obtain ⟨h1, h2, h3⟩ := hS
  refine ⟨fun I J Kk => W (I / S.cfg.d1.N) (J / S.cfg.d2.N) (Kk / S.cfg.d3.N) (I % S.cfg.d1.N + NG) (J % S.cfg.d2.N + NG)
    (Kk % S.cfg.d3.N + NG), ?_, ?_⟩
  · have hG : ∀ d : Dim, d.WF → ∀ c i, act d i → glob d c i / d.N = c ∧ glob d c i % d.N + NG = i := by
      intro d hd c i hi
      have hp := hd.N_pos
      unfold act at hi
      have e : glob d c i = (i - NG) + d.N * c := by unfold glob; ring
      constructor
      · rw [e, Int.add_mul_ediv_left _ _ (by omega), Int.ediv_eq_zero_of_lt (by omega) (by omega)]; ring
      · rw [e, Int.add_mul_emod_self_left, Int.emod_eq_of_lt (by omega) (by omega)]; ring
    intro c1 c2 c3 i j k _ _ _ hi hj hk
    simp only
    rw [(hG _ h1 c1 i hi).1, (hG _ h1 c1 i hi).2, (hG _ h2 c2 j hj).1, (hG _ h2 c2 j hj).2, (hG _ h3 c3 k hk).1, (hG _ h3 c3 k hk).2]
  · have hq : ∀ d : Dim, d.WF → ∀ J, (0 ≤ J ∧ J < d.tot) → (0 ≤ J / d.N ∧ J / d.N < d.C) ∧ act d (J % d.N + NG) ∧
        glob d (J / d.N) (J % d.N + NG) = J := by
      intro d hd J hJ
      have hN := hd.N_pos
      obtain ⟨h0, h1⟩ := hJ
      unfold Dim.tot at h1
      refine ⟨⟨Int.ediv_nonneg (by omega) (by omega), ?_⟩, ⟨?_, ?_⟩, ?_⟩
      · rw [Int.ediv_lt_iff_lt_mul (by omega)]; rw [mul_comm]; omega
      · have := Int.emod_nonneg J (show d.N ≠ 0 by omega); omega
      · have := Int.emod_lt_of_pos J (show 0 < d.N by omega); omega
      · have := Int.mul_ediv_add_emod J d.N; unfold glob; linarith [mul_comm d.N (J / d.N)]
    intro I J Kk hI hJ hK
    obtain ⟨r1, a1, e1⟩ := hq _ h1 I hI
    obtain ⟨r2, a2, e2⟩ := hq _ h2 J hJ
    obtain ⟨r3, a3, e3⟩ := hq _ h3 Kk hK
    simp only
    rw [h _ _ _ _ _ _ ⟨r1, r2, r3⟩ ⟨a1, a2, a3⟩, e1, e2, e3]

theorem src_inside {d : Dim} (h : d.WF) (I : ℤ) (h0 : -NG ≤ I) (h1 : I < d.tot + NG) : 0 ≤ src d I ∧ src d I < d.tot := by
  have hNG : NG = 3 := rfl
  have hN := h.N_pos
  have hC := h.C_pos
  have ht : d.N ≤ d.tot := by unfold Dim.tot; nlinarith
  unfold src
  split_ifs with a b c e
  · omega
  · cases hl : d.left <;> simp only <;> omega
  · omega
  · cases hl : d.right <;> simp only <;> omega
  · omega

theorem glob_stored {d : Dim} {c i : ℤ} (hd : d.WF) (hc : 0 ≤ c ∧ c < d.C) (hi : all d i) : -NG ≤ glob d c i ∧ glob d c i < d.tot + NG := by
  have hNG : NG = 3 := rfl
  have hN := hd.N_pos
  unfold all at hi
  unfold glob Dim.tot
  have h0 : 0 ≤ c * d.N := mul_nonneg hc.1 (by omega)
  have h1 : (c + 1) * d.N ≤ d.N * d.C := by nlinarith [show c + 1 ≤ d.C by omega]
  have h' : (c + 1) * d.N = c * d.N + d.N := by ring
  constructor <;> omega

/-- The inflow checks by global index. -/
def checked (S : Setup K) (I J : ℤ) (v : Prim K) : Prim K :=
  if S.sol.mks ∧ S.sol.noIn.x1l ∧ I < 0 then S.sol.inflow I J false v
  else if S.sol.mks ∧ S.sol.noIn.x1r ∧ S.cfg.d1.tot ≤ I then S.sol.inflow I J true v
  else v

theorem inflowPass_glob {S : Setup K} (hS : S.WF) (W : World (Cell K)) {c1 c2 c3 i : ℤ} (j k : ℤ) (hr : Rank S c1 c2 c3) (hi : all S.cfg.d1 i) :
    (inflowPass S W c1 c2 c3 i j k).prim = checked S (glob S.cfg.d1 c1 i) (glob S.cfg.d2 c2 j) (W c1 c2 c3 i j k).prim := by
  have hNG : NG = 3 := rfl
  obtain ⟨h1, h2, h3⟩ := hS
  have l1 : (c1 = 0 ∧ 0 ≤ i ∧ i < NG) ↔ glob S.cfg.d1 c1 i < 0 := by
    have hN := h1.N_pos
    obtain ⟨i0, i1⟩ := hi
    unfold glob
    constructor
    · rintro ⟨rfl, -, h⟩; rw [zero_mul]; omega
    · intro hlt
      have hc : c1 = 0 := by
        by_contra hne
        have hthick : NG ≤ S.cfg.d1.N := by
          by_contra hthin
          have := (h1.thin (by omega)).1
          have := hr.1
          omega
        have : 1 ≤ c1 := by have := hr.1.1; omega
        nlinarith
      subst hc
      rw [zero_mul] at hlt
      exact ⟨rfl, i0, by omega⟩
  have l2 : (c1 = S.cfg.d1.C - 1 ∧ S.cfg.d1.N + NG ≤ i ∧ i < S.cfg.d1.N + 2 * NG) ↔ S.cfg.d1.tot ≤ glob S.cfg.d1 c1 i := by
    have hN := h1.N_pos
    obtain ⟨i0, i1⟩ := hi
    unfold glob Dim.tot
    constructor
    · rintro ⟨rfl, h, -⟩
      have : (S.cfg.d1.C - 1) * S.cfg.d1.N = S.cfg.d1.N * S.cfg.d1.C - S.cfg.d1.N := by ring
      omega
    · intro hle
      have hc : c1 = S.cfg.d1.C - 1 := by
        by_contra hne
        have hthick : NG ≤ S.cfg.d1.N := by
          by_contra hthin
          have := (h1.thin (by omega)).1
          have := hr.1
          omega
        have : c1 + 2 ≤ S.cfg.d1.C := by have := hr.1.2; omega
        nlinarith
      subst hc
      have : (S.cfg.d1.C - 1) * S.cfg.d1.N = S.cfg.d1.N * S.cfg.d1.C - S.cfg.d1.N := by ring
      exact ⟨rfl, by omega, i1⟩
  unfold inflowPass checked
  simp only [l1, l2]
  split_ifs <;> rfl

/-- The boundary pass fills all zones of all ranks from the active ones. -/
theorem bound_holds {S : Setup K} (hS : S.WF) (hout : NoUpperOutflow S) (W W' : World (Cell K)) (G : ℤ → ℤ → ℤ → Prim K)
    (h : Shows S W G) (hb : bound S W = some W') : Holds S W' G := by
  obtain ⟨GC, hrep, hGC⟩ := represents_of_shows hS W G h
  unfold bound at hb
  rw [Option.map_eq_some_iff] at hb
  obtain ⟨W1, e1, rfl⟩ := hb
  intro c1 c2 c3 i j k hr hi hj hk
  have hex := C18_ghosts_partial S.cfg W W1 GC hS.1 hS.2.1 hS.2.2 hout hrep e1 c1 c2 c3 i j k hr.1 hr.2.1 hr.2.2 hi hj hk
  have g1 := glob_stored hS.1 hr.1 hi
  have g2 := glob_stored hS.2.1 hr.2.1 hj
  have g3 := glob_stored hS.2.2 hr.2.2 hk
  rw [inflowPass_glob hS W1 j k hr hi, hex, expected_prim]
  have hv := hGC _ _ _ (src_inside hS.1 _ g1.1 g1.2) (src_inside hS.2.1 _ g2.1 g2.2) (src_inside hS.2.2 _ g3.1 g3.2)
  unfold ext checked expected radial
  simp only [hv]

theorem exists_shows {S : Setup K} (hS : S.WF) (W : World (Cell K)) : ∃ G, Shows S W G := by
  refine ⟨fun I J Kk => (W (I / S.cfg.d1.N) (J / S.cfg.d2.N) (Kk / S.cfg.d3.N) (I % S.cfg.d1.N + NG) (J % S.cfg.d2.N + NG) (Kk % S.cfg.d3.N + NG)).prim, ?_⟩
  have hG : ∀ d : Dim, d.WF → ∀ c i, act d i → glob d c i / d.N = c ∧ glob d c i % d.N + NG = i := by
    intro d hd c i hi
    have hp := hd.N_pos
    unfold act at hi
    have e : glob d c i = (i - NG) + d.N * c := by unfold glob; ring
    constructor
    · rw [e, Int.add_mul_ediv_left _ _ (by omega), Int.ediv_eq_zero_of_lt (by omega) (by omega)]; ring
    · rw [e, Int.add_mul_emod_self_left, Int.emod_eq_of_lt (by omega) (by omega)]; ring
  intro c1 c2 c3 i j k _ a
  simp only
  rw [(hG _ hS.1 c1 i a.1).1, (hG _ hS.1 c1 i a.1).2, (hG _ hS.2.1 c2 j a.2.1).1, (hG _ hS.2.1 c2 j a.2.1).2, (hG _ hS.2.2 c3 k a.2.2).1,
    (hG _ hS.2.2 c3 k a.2.2).2]

/-- Whatever the boundaries, after the boundary pass the ranks hold one extended grid, which is what they held in active zones. -/
theorem bound_any {S : Setup K} (hS : S.WF) (W W' : World (Cell K)) (hb : bound S W = some W') :
    ∃ E, HoldsE S W' E ∧ Shows S W E := by
  obtain ⟨G, hG⟩ := exists_shows hS W
  obtain ⟨GC, hrep, hGC⟩ := represents_of_shows hS W G hG
  unfold bound at hb
  rw [Option.map_eq_some_iff] at hb
  obtain ⟨W1, e1, rfl⟩ := hb
  refine ⟨fun I J Kk => checked S I J (actual S.cfg GC I J Kk).prim, ?_, ?_⟩
  · intro c1 c2 c3 i j k hr hi hj hk
    rw [inflowPass_glob hS W1 j k hr hi,
      boundPrim_actual S.cfg W W1 GC hS.1 hS.2.1 hS.2.2 hrep e1 c1 c2 c3 i j k hr.1 hr.2.1 hr.2.2 hi hj hk]
  · intro c1 c2 c3 i j k hr a
    have g1 := glob_inside _ hS.1 _ _ hr.1 a.1
    have g2 := glob_inside _ hS.2.1 _ _ hr.2.1 a.2.1
    have g3 := glob_inside _ hS.2.2 _ _ hr.2.2 a.2.2
    simp only
    rw [actual_inside S.cfg GC _ _ _ g1 g2 g3, ← hrep c1 c2 c3 i j k hr.1 hr.2.1 hr.2.2 a.1 a.2.1 a.2.2]
    unfold checked
    rw [if_neg (by omega), if_neg (by omega)]

theorem bound_isSome (S : Setup K) (W : World (Cell K)) : (bound S W).isSome ↔ Supported S.cfg := by
  unfold bound
  rw [Option.isSome_map, C18_supported]

/-- Active zones of a filled array. -/
theorem shows_of_holds {S : Setup K} (hS : S.WF) (W : World (Cell K)) (G : ℤ → ℤ → ℤ → Prim K) (h : Holds S W G) : Shows S W G := by
  intro c1 c2 c3 i j k hr ha
  rw [h c1 c2 c3 i j k hr (all_of_act ha.1) (all_of_act ha.2.1) (all_of_act ha.2.2)]
  have g1 := glob_inside _ hS.1 _ _ hr.1 ha.1
  have g2 := glob_inside _ hS.2.1 _ _ hr.2.1 ha.2.1
  have g3 := glob_inside _ hS.2.2 _ _ hr.2.2 ha.2.2
  unfold ext
  rw [if_neg (by omega), if_neg (by omega)]
  have e : ∀ {d : Dim} {J : ℤ}, 0 ≤ J ∧ J < d.tot → src d J = J := by
    intro d J hJ; unfold src; rw [if_neg (by omega), if_neg (by omega)]
  have hb : ¬ BeyondPole S.cfg.d2 (glob S.cfg.d2 c2 j) := by rintro ⟨-, h | h⟩ <;> omega
  unfold expected
  simp only
  rw [if_neg hb, e g2, e g3]
  unfold radial
  simp only
  rw [if_neg (by omega : ¬ glob S.cfg.d1 c1 i < 0), if_neg (by omega : ¬ S.cfg.d1.tot ≤ glob S.cfg.d1 c1 i), e g1]
  split_ifs <;> rfl

/-! ## One pass -/

/-- Size of the whole grid. -/
def Setup.whole (S : Setup K) : FluxCT.Dims := ⟨S.cfg.d1.tot, S.cfg.d2.tot, S.cfg.d3.tot⟩

theorem origin_le {d : Dim} (hd : d.WF) {c : ℤ} (hc : 0 ≤ c ∧ c < d.C) : 0 ≤ c * d.N ∧ c * d.N + d.N ≤ d.tot ∧
    (c = 0 ↔ c * d.N = 0) ∧ (c = d.C - 1 ↔ c * d.N + d.N = d.tot) := by
  have hN := hd.N_pos
  unfold Dim.tot
  refine ⟨mul_nonneg hc.1 (by omega), ?_, ?_, ?_⟩
  · nlinarith [show c + 1 ≤ d.C by omega]
  · constructor
    · rintro rfl; ring
    · intro h
      rcases mul_eq_zero.1 h with h | h
      · exact h
      · omega
  · constructor
    · rintro rfl; ring
    · intro h
      have h2 : d.N * (c + 1 - d.C) = 0 := by linarith [mul_comm c d.N]
      rcases mul_eq_zero.1 h2 with h | h
      · omega
      · omega

theorem rank_window {S : Setup K} (hS : S.WF) {c1 c2 c3 : ℤ} (hr : Rank S c1 c2 c3) :
    Window S.dims (S.origin c1 c2 c3) S.whole (S.guards c1 c2) S.sol.noIn := by
  obtain ⟨a1, b1, z1, y1⟩ := origin_le hS.1 hr.1
  obtain ⟨a2, b2, z2, y2⟩ := origin_le hS.2.1 hr.2.1
  obtain ⟨a3, b3, z3, y3⟩ := origin_le hS.2.2 hr.2.2
  refine ⟨hS.1.N_pos, hS.2.1.N_pos, hS.2.2.N_pos, a1, a2, a3, b1, b2, b3, ?_, ?_, ?_, ?_⟩
  · exact congrArg (S.sol.noIn.x1l && ·) (decide_eq_decide.2 z1)
  · exact congrArg (S.sol.noIn.x1r && ·) (decide_eq_decide.2 y1)
  · exact congrArg (S.sol.noIn.x2l && ·) (decide_eq_decide.2 z2)
  · exact congrArg (S.sol.noIn.x2r && ·) (decide_eq_decide.2 y2)

theorem rank_sees {S : Setup K} (W : World (Cell K)) (E : ℤ → ℤ → ℤ → Prim K) (h : HoldsE S W E) {c1 c2 c3 : ℤ}
    (hr : Rank S c1 c2 c3) : Sees S.dims (S.origin c1 c2 c3) (local_ W c1 c2 c3) E := by
  have hNG : NG = 3 := rfl
  intro i j k i0 i1 j0 j1 k0 k1
  simp only [Setup.dims] at i1 j1 k1
  rw [local_, h c1 c2 c3 _ _ _ hr ⟨by omega, by omega⟩ ⟨by omega, by omega⟩ ⟨by omega, by omega⟩]
  simp only [glob, Setup.origin]
  congr 1 <;> ring

/-- Empty arrays. -/
def blank : Stale K := ⟨(fun _ _ _ _ => 0, fun _ _ _ _ => 0, fun _ _ _ _ => 0), ⟨fun _ _ _ => 0, fun _ _ _ => 0, fun _ _ _ => 0⟩⟩

/-- A pass on all ranks is the pass on the undivided grid. -/
theorem advance_whole {S : Setup K} (hS : S.WF) (st : ℤ → ℤ → ℤ → Stale K) (Dt : K) (Wi Wb Wf : World (Cell K))
    (Ei Eb : ℤ → ℤ → ℤ → Prim K) (hi : HoldsE S Wi Ei) (hb : HoldsE S Wb Eb) :
    Represents S.cfg (advance S st Dt Wi Wb Wf) (rankAdvance S.sol S.whole zeroOrigin S.sol.noIn Dt Ei Eb blank) := by
  intro c1 c2 c3 i j k r1 r2 r3 a1 a2 a3
  have hr : Rank S c1 c2 c3 := ⟨r1, r2, r3⟩
  unfold advance
  rw [if_pos ⟨a1, a2, a3⟩]
  unfold act at a1 a2 a3
  rw [advance_sees (rank_window hS hr) S.sol Dt _ _ _ _ (st c1 c2 c3) blank (rank_sees Wi Ei hi hr) (rank_sees Wb Eb hb hr) _ _ _
    (by omega) (by omega) (by omega) (by simp only [Setup.dims]; omega) (by simp only [Setup.dims]; omega) (by simp only [Setup.dims]; omega)]
  unfold glob
  simp only [Setup.origin]
  congr 1 <;> ring

/-- What a pass makes of the grid: an undivided grid advanced in one piece. -/
def passed (S : Setup K) (Dt : K) (Gi Gb : ℤ → ℤ → ℤ → Prim K) (I J Kk : ℤ) : Cell K :=
  rankAdvance S.sol S.whole zeroOrigin S.sol.noIn Dt (ext S Gi) (ext S Gb) blank I J Kk

theorem advance_passed {S : Setup K} (hS : S.WF) (st : ℤ → ℤ → ℤ → Stale K) (Dt : K) (Wi Wb Wf : World (Cell K))
    (Gi Gb : ℤ → ℤ → ℤ → Prim K) (hi : Holds S Wi Gi) (hb : Holds S Wb Gb) : Represents S.cfg (advance S st Dt Wi Wb Wf) (passed S Dt Gi Gb) :=
  advance_whole hS st Dt Wi Wb Wf _ _ hi hb

/-- A repair without failures changes nothing. -/
theorem repair_clean {S : Setup K} (hS : S.WF) (W : World (Cell K)) (hW : Recovered S W) {c1 c2 c3 : ℤ} (hr : Rank S c1 c2 c3)
    (i j k : ℤ) : (repair S W c1 c2 c3 i j k).prim = (W c1 c2 c3 i j k).prim := by
  have p1 := hS.1.N_pos
  have p2 := hS.2.1.N_pos
  have p3 := hS.2.2.N_pos
  have hNG : NG = 3 := rfl
  have hNG' : FixupUtoprim.NG = 3 := rfl
  unfold repair
  generalize hn : (⟨S.cfg.d1.N.toNat, S.cfg.d2.N.toNat, S.cfg.d3.N.toNat⟩ : FixupUtoprim.Sizes) = n
  have n1 : (n.N1 : ℤ) = S.cfg.d1.N := by rw [← hn]; simp; omega
  have n2 : (n.N2 : ℤ) = S.cfg.d2.N := by rw [← hn]; simp; omega
  have n3 : (n.N3 : ℤ) = S.cfg.d3.N := by rw [← hn]; simp; omega
  have hpos : 0 < n.N1 * n.N2 * n.N3 := by
    have : 0 < n.N1 := by omega
    have : 0 < n.N2 := by omega
    have : 0 < n.N3 := by omega
    positivity
  simp only
  generalize hfix : (fun (z : FixupUtoprim.Zone) (v : Fin 5 → K) (ip : Fin 5) =>
    S.sol.fix (glob S.cfg.d1 c1 z.1) (glob S.cfg.d2 c2 z.2.1) (glob S.cfg.d3 c3 z.2.2)
      (fun q => if h : q.val < 5 then v ⟨q.val, h⟩ else (W c1 c2 c3 z.1 z.2.1 z.2.2).prim q) (Fin.castLE (by norm_num) ip)) = fix
  set P : FixupUtoprim.Zone → Fin 5 → K := fun z ip => (W c1 c2 c3 z.1 z.2.1 z.2.2).prim (Fin.castLE (by norm_num) ip) with hP
  set pf : FixupUtoprim.Zone → ℤ := fun z => (W c1 c2 c3 z.1 z.2.1 z.2.2).pflag with hpf
  have good : ∀ z, FixupUtoprim.Active n z → FixupUtoprim.prepare n pf z = true := by
    intro z hz
    unfold FixupUtoprim.Active at hz
    have h0 : pf z = 0 := hW _ _ _ _ _ _ hr ⟨⟨by omega, by omega⟩, ⟨by omega, by omega⟩, ⟨by omega, by omega⟩⟩
    simp only [FixupUtoprim.prepare, h0, FixupUtoprim.corner, Bool.and_eq_true, decide_eq_true_eq, Bool.not_eq_true', Bool.and_eq_false_iff, Bool.or_eq_false_iff,
      decide_eq_false_iff_not]
    exact ⟨trivial, Or.inl (Or.inl ⟨by omega, by omega⟩)⟩
  set g : FixupUtoprim.Grid K := ⟨P, FixupUtoprim.prepare n pf⟩ with hg
  have fold : ∀ (L : List FixupUtoprim.Zone), (∀ z ∈ L, FixupUtoprim.Active n z) → ∀ a : FixupUtoprim.Acc K,
      L.foldl (FixupUtoprim.zoneStep fix g) a = a := by
    intro L
    induction L with
    | nil => intro _ a; rfl
    | cons z L ih =>
      intro hL a
      have hz : g.good z = true := good z (hL z (by simp))
      rw [List.foldl_cons, FixupUtoprim.zoneStep, if_neg (by rw [hz]; simp), ih (fun z hz => hL z (by simp [hz]))]
  have hp : FixupUtoprim.pass n fix g 0 = ⟨g, 0, 0⟩ := by
    unfold FixupUtoprim.pass
    exact fold _ (fun z hz => (FixupUtoprim.mem_zones n z).1 hz) _
  have hl : FixupUtoprim.fixupUtoprim n fix (n.N1 * n.N2 * n.N3 + 2) P pf = some (g, false) := by
    unfold FixupUtoprim.fixupUtoprim
    rw [show n.N1 * n.N2 * n.N3 + 2 = (n.N1 * n.N2 * n.N3 + 1) + 1 from rfl, FixupUtoprim.loop]
    simp only [← hg, hp]
    have : (0 == n.N1 * n.N2 * n.N3) = false := by simp; omega
    simp [this]
  rw [hl]
  funext q
  simp only [hg, hP]
  by_cases hq : q.val < 5 <;> simp

theorem fixup_recovered {S : Setup K} (W : World (Cell K)) (h : Recovered S W) : Recovered S (fixup S W) := by
  intro c1 c2 c3 i j k hr ha
  unfold fixup
  rw [if_pos (show _ ∧ _ ∧ _ from ha)]
  exact h c1 c2 c3 i j k hr ha

/-- A pass with its floors. -/
def after (S : Setup K) (Dt : K) (Gi Gb : ℤ → ℤ → ℤ → Prim K) (I J Kk : ℤ) : Prim K := S.sol.fix I J Kk (passed S Dt Gi Gb I J Kk).prim

theorem pass_shows {S : Setup K} (hS : S.WF) (st : ℤ → ℤ → ℤ → Stale K) (Dt : K) (Wi Wb Wf : World (Cell K))
    (Gi Gb : ℤ → ℤ → ℤ → Prim K) (hi : Holds S Wi Gi) (hb : Holds S Wb Gb) (hc : Recovered S (advance S st Dt Wi Wb Wf)) :
    Shows S (repair S (fixup S (advance S st Dt Wi Wb Wf))) (after S Dt Gi Gb) := by
  intro c1 c2 c3 i j k hr ha
  rw [repair_clean hS _ (fixup_recovered _ hc) hr i j k]
  unfold fixup
  rw [if_pos (show _ ∧ _ ∧ _ from ha), advance_passed hS st Dt Wi Wb Wf Gi Gb hi hb c1 c2 c3 i j k hr.1 hr.2.1 hr.2.2 ha.1 ha.2.1 ha.2.2]
  rfl

/-! ## Speeds -/

theorem maxL_le (l : List K) (x : K) : maxL l ≤ x ↔ 0 ≤ x ∧ ∀ y ∈ l, y ≤ x := by
  unfold maxL
  have : ∀ (l : List K) (a : K), l.foldl max a ≤ x ↔ a ≤ x ∧ ∀ y ∈ l, y ≤ x := by
    intro l
    induction l with
    | nil => intro a; simp
    | cons b l ih => intro a; rw [List.foldl_cons, ih, max_le_iff]; simp [and_assoc]
  exact this l 0

theorem mem_ints (a b x : ℤ) : x ∈ ints a b ↔ a ≤ x ∧ x ≤ b := by
  unfold ints
  simp only [List.mem_map, List.mem_range]
  constructor
  · rintro ⟨n, hn, rfl⟩; omega
  · rintro ⟨h1, h2⟩; exact ⟨(x - a).toNat, by omega, by omega⟩

/-- Speeds on the whole grid. -/
def speeds (S : Setup K) (G : ℤ → ℤ → ℤ → Prim K) (d : Fin 3) : K := maxL (rankSpeeds S.sol S.whole zeroOrigin (ext S G) d)

theorem cmax_speeds {S : Setup K} (hS : S.WF) (W : World (Cell K)) (G : ℤ → ℤ → ℤ → Prim K) (h : Holds S W G) (d : Fin 3) :
    cmax S W d = speeds S G d := by
  have key : ∀ x, cmax S W d ≤ x ↔ speeds S G d ≤ x := by
    intro x
    unfold cmax speeds
    rw [maxL_le, maxL_le]
    simp only [List.mem_flatMap, List.mem_map, mem_ints]
    have sub : ∀ a b c : ℤ, a + b - 3 + c = a + (b - 3 + c) := fun a b c => by ring
    have hdims : S.dims.n1 = S.cfg.d1.N ∧ S.dims.n2 = S.cfg.d2.N ∧ S.dims.n3 = S.cfg.d3.N := ⟨rfl, rfl, rfl⟩
    obtain ⟨w1, w2, w3⟩ := hS
    constructor
    · rintro ⟨hx, hall⟩
      refine ⟨hx, ?_⟩
      have hrank : ∀ c1 c2 c3, Rank S c1 c2 c3 → ∀ y ∈ rankSpeeds S.sol S.dims (S.origin c1 c2 c3) (local_ W c1 c2 c3) d, y ≤ x := by
        intro c1 c2 c3 hr
        exact ((maxL_le _ _).1 (hall _ ⟨c1, ⟨hr.1.1, by have := hr.1.2; omega⟩, c2, ⟨hr.2.1.1, by have := hr.2.1.2; omega⟩, c3,
          ⟨hr.2.2.1, by have := hr.2.2.2; omega⟩, rfl⟩)).2
      intro y hy
      fin_cases d <;> simp only [rankSpeeds, List.mem_flatMap, List.mem_map, mem_ints] at hy <;>
      · obtain ⟨I, hI, J, hJ, Kk, hK, rfl⟩ := hy
        obtain ⟨c1, i, c10, c11, i0, i1, rfl⟩ := cover w1 _ I (by first | exact Or.inl rfl | exact Or.inr rfl) hI.1 hI.2
        obtain ⟨c2, j, c20, c21, j0, j1, rfl⟩ := cover w2 _ J (by first | exact Or.inl rfl | exact Or.inr rfl) hJ.1 hJ.2
        obtain ⟨c3, k, c30, c31, k0, k1, rfl⟩ := cover w3 _ Kk (by first | exact Or.inl rfl | exact Or.inr rfl) hK.1 hK.2
        have hr : Rank S c1 c2 c3 := ⟨⟨c10, c11⟩, ⟨c20, c21⟩, ⟨c30, c31⟩⟩
        have hs := rank_sees W (ext S G) h hr
        apply hrank c1 c2 c3 hr
        simp only [rankSpeeds, List.mem_flatMap, List.mem_map, mem_ints]
        refine ⟨i, ⟨i0, by omega⟩, j, ⟨j0, by omega⟩, k, ⟨k0, by omega⟩, ?_⟩
        simp only [zeroOrigin, zero_add, Setup.origin]
        congr 1
        funext s
        have hs6 : (s : ℤ) < 6 := by have := s.2; omega
        rw [hs _ _ _ (by omega) (by omega) (by omega) (by omega) (by omega) (by omega)]
        simp only [Setup.origin, sub]
    · rintro ⟨hx, hall⟩
      refine ⟨hx, ?_⟩
      rintro y ⟨c1, b1, c2, b2, c3, b3, rfl⟩
      rw [maxL_le]
      refine ⟨hx, ?_⟩
      have hr : Rank S c1 c2 c3 := ⟨⟨b1.1, by omega⟩, ⟨b2.1, by omega⟩, ⟨b3.1, by omega⟩⟩
      have hs := rank_sees W (ext S G) h hr
      obtain ⟨q1, q1', -, -⟩ := origin_le w1 hr.1
      obtain ⟨q2, q2', -, -⟩ := origin_le w2 hr.2.1
      obtain ⟨q3, q3', -, -⟩ := origin_le w3 hr.2.2
      intro y hy
      apply hall
      fin_cases d <;> simp only [rankSpeeds, List.mem_flatMap, List.mem_map, mem_ints] at hy ⊢ <;>
      · obtain ⟨i, hi, j, hj, k, hk, rfl⟩ := hy
        refine ⟨c1 * S.cfg.d1.N + i, ?_, c2 * S.cfg.d2.N + j, ?_, c3 * S.cfg.d3.N + k, ?_, ?_⟩
        · simp only [Setup.whole]; omega
        · simp only [Setup.whole]; omega
        · simp only [Setup.whole]; omega
        · simp only [zeroOrigin, zero_add, Setup.origin]
          congr 1
          funext s
          have hs6 : (s : ℤ) < 6 := by have := s.2; omega
          rw [hs _ _ _ (by omega) (by omega) (by omega) (by omega) (by omega) (by omega)]
          simp only [Setup.origin, sub]
  exact le_antisymm ((key _).2 le_rfl) ((key _).1 le_rfl)

/-! ## Two divisions -/

section two

variable {A B : Setup K} (ha : A.WF) (hb : B.WF) (h : SameProblem A B)
include ha hb h

theorem whole_same : A.whole = B.whole := by
  unfold Setup.whole
  rw [h.d1.1, h.d2.1, h.d3.1]

theorem passed_same (Dt : K) (Gi Gb : ℤ → ℤ → ℤ → Prim K) : passed A Dt Gi Gb = passed B Dt Gi Gb := by
  funext I J Kk
  unfold passed
  rw [h.sol, whole_same ha hb h, ext_same ha hb h, ext_same ha hb h]

theorem after_same (Dt : K) (Gi Gb : ℤ → ℤ → ℤ → Prim K) : after A Dt Gi Gb = after B Dt Gi Gb := by
  funext I J Kk
  unfold after
  rw [h.sol, passed_same ha hb h]

theorem speeds_same (G : ℤ → ℤ → ℤ → Prim K) (d : Fin 3) : speeds A G d = speeds B G d := by
  unfold speeds
  rw [h.sol, whole_same ha hb h, ext_same ha hb h]

theorem recovered_same (stA stB : ℤ → ℤ → ℤ → Stale K) (Dt : K) (Ai Ab Af Bi Bb Bf : World (Cell K)) (Gi Gb : ℤ → ℤ → ℤ → Prim K)
    (hAi : Holds A Ai Gi) (hAb : Holds A Ab Gb) (hBi : Holds B Bi Gi) (hBb : Holds B Bb Gb)
    (hr : Recovered A (advance A stA Dt Ai Ab Af)) : Recovered B (advance B stB Dt Bi Bb Bf) := by
  intro c1 c2 c3 i j k r a
  rw [advance_passed hb stB Dt Bi Bb Bf Gi Gb hBi hBb c1 c2 c3 i j k r.1 r.2.1 r.2.2 a.1 a.2.1 a.2.2, ← passed_same ha hb h]
  have g1 := glob_inside _ hb.1 _ _ r.1 a.1
  have g2 := glob_inside _ hb.2.1 _ _ r.2.1 a.2.1
  have g3 := glob_inside _ hb.2.2 _ _ r.2.2 a.2.2
  rw [← h.d1.1] at g1
  rw [← h.d2.1] at g2
  rw [← h.d3.1] at g3
  obtain ⟨e1, i', q1, b1, z1⟩ := cover_act ha.1 _ g1.1 g1.2
  obtain ⟨e2, j', q2, b2, z2⟩ := cover_act ha.2.1 _ g2.1 g2.2
  obtain ⟨e3, k', q3, b3, z3⟩ := cover_act ha.2.2 _ g3.1 g3.2
  rw [← z1, ← z2, ← z3, ← advance_passed ha stA Dt Ai Ab Af Gi Gb hAi hAb e1 e2 e3 i' j' k' q1 q2 q3 b1 b2 b3]
  exact hr e1 e2 e3 i' j' k' ⟨q1, q2, q3⟩ ⟨b1, b2, b3⟩

theorem bound_same (hoA : NoUpperOutflow A) (hoB : NoUpperOutflow B) (WA WB : World (Cell K)) (G : ℤ → ℤ → ℤ → Prim K)
    (hA : Shows A WA G) (hB : Shows B WB G) :
    (bound A WA = none ∧ bound B WB = none) ∨
      ∃ a b, bound A WA = some a ∧ bound B WB = some b ∧ Holds A a G ∧ Holds B b G := by
  have eA := bound_isSome A WA
  have eB := bound_isSome B WB
  rw [← supported_same ha hb h, ← eA] at eB
  cases ca : bound A WA with
  | none =>
    cases cb : bound B WB with
    | none => exact Or.inl ⟨rfl, rfl⟩
    | some b => rw [ca, cb] at eB; simp at eB
  | some a =>
    cases cb : bound B WB with
    | none => rw [ca, cb] at eB; simp at eB
    | some b => exact Or.inr ⟨a, b, rfl, rfl, bound_holds ha hoA WA a G hA ca, bound_holds hb hoB WB b G hB cb⟩

/-- Two states that hold the same grid. -/
def Tied (A B : Setup K) (a b : State K) : Prop := a.dt = b.dt ∧ a.t = b.t ∧ ∃ G, Holds A a.W G ∧ Holds B b.W G

theorem tied_step (hoA : NoUpperOutflow A) (hoB : NoUpperOutflow B) (ma mb : Mem K) (a b : State K) (ht : Tied A B a b)
    (hc : CleanStep A ma a) : (step A ma a = none ∧ step B mb b = none) ∨
      ∃ a' b', step A ma a = some a' ∧ step B mb b = some b' ∧ Tied A B a' b' := by
  obtain ⟨hdt, htt, G, hA, hB⟩ := ht
  obtain ⟨c1, c2⟩ := hc
  unfold step
  have sA := pass_shows ha ma.pre ((1/2) * a.dt) a.W a.W (flagged ma.half a.W) G G hA hA c1
  have sB := pass_shows hb mb.pre ((1/2) * b.dt) b.W b.W (flagged mb.half b.W) G G hB hB
    (by rw [← hdt]; exact recovered_same ha hb h _ _ _ _ _ _ _ _ _ G G hA hA hB hB c1)
  rw [← hdt, ← after_same ha hb h, hdt] at sB
  rw [← hdt] at sB ⊢
  rcases bound_same ha hb h hoA hoB _ _ _ sA sB with ⟨e1, e2⟩ | ⟨Ah, Bh, e1, e2, hAh, hBh⟩
  · left; rw [e1, e2]; exact ⟨rfl, rfl⟩
  · rw [e1, e2]
    have c2' := c2 Ah e1
    have tA := pass_shows ha ma.cor a.dt a.W Ah (flagged a.W Ah) G _ hA hAh c2'
    have tB := pass_shows hb mb.cor a.dt b.W Bh (flagged b.W Bh) G _ hB hBh
      (recovered_same ha hb h _ _ _ _ _ _ _ _ _ G _ hA hAh hB hBh c2')
    rw [← after_same ha hb h] at tB
    simp only [Option.bind_some]
    rcases bound_same ha hb h hoA hoB _ _ _ tA tB with ⟨e3, e4⟩ | ⟨A', B', e3, e4, hA', hB'⟩
    · left; rw [e3, e4]; exact ⟨rfl, rfl⟩
    · right
      rw [e3, e4]
      refine ⟨_, _, rfl, rfl, ?_, ?_, _, hA', hB'⟩
      · simp only [cmax_speeds ha Ah _ hAh, cmax_speeds hb Bh _ hBh, speeds_same ha hb h, h.sol, htt]
      · simp only [htt]

theorem common (WA WB : World (Cell K)) (hz : SameZones A B WA WB) : ∃ G, Shows A WA G ∧ Shows B WB G := by
  obtain ⟨G0, hG0⟩ := exists_shows ha WA
  obtain ⟨GC, hrep, -⟩ := represents_of_shows (S := A) ha WA G0 hG0
  refine ⟨fun I J Kk => (GC I J Kk).prim, ?_, ?_⟩
  · intro c1 c2 c3 i j k r a
    rw [hrep c1 c2 c3 i j k r.1 r.2.1 r.2.2 a.1 a.2.1 a.2.2]
  · intro c1 c2 c3 i j k r a
    have g1 := glob_inside _ hb.1 _ _ r.1 a.1
    have g2 := glob_inside _ hb.2.1 _ _ r.2.1 a.2.1
    have g3 := glob_inside _ hb.2.2 _ _ r.2.2 a.2.2
    rw [← h.d1.1] at g1
    rw [← h.d2.1] at g2
    rw [← h.d3.1] at g3
    obtain ⟨e1, i', q1, b1, z1⟩ := cover_act ha.1 _ g1.1 g1.2
    obtain ⟨e2, j', q2, b2, z2⟩ := cover_act ha.2.1 _ g2.1 g2.2
    obtain ⟨e3, k', q3, b3, z3⟩ := cover_act ha.2.2 _ g3.1 g3.2
    have := hz e1 e2 e3 c1 c2 c3 i' j' k' i j k ⟨q1, q2, q3⟩ r ⟨b1, b2, b3⟩ a z1 z2 z3
    rw [← this, hrep e1 e2 e3 i' j' k' q1 q2 q3 b1 b2 b3, z1, z2, z3]

theorem fixup_shows {S : Setup K} (W : World (Cell K)) (G : ℤ → ℤ → ℤ → Prim K) (hs : Shows S W G) :
    Shows S (fixup S W) fun I J Kk => S.sol.fix I J Kk (G I J Kk) := by
  intro c1 c2 c3 i j k r a
  unfold fixup
  rw [if_pos (show _ ∧ _ ∧ _ from a)]
  simp only
  rw [hs c1 c2 c3 i j k r a]

theorem tied_run (hoA : NoUpperOutflow A) (hoB : NoUpperOutflow B) (WA WB : World (Cell K)) (hz : SameZones A B WA WB) (dt t : K)
    (ms : List (Mem K × Mem K)) (hc : CleanRun A WA dt t (ms.map Prod.fst)) :
    (run A WA dt t (ms.map Prod.fst) = none ∧ run B WB dt t (ms.map Prod.snd) = none) ∨
      ∃ a b, run A WA dt t (ms.map Prod.fst) = some a ∧ run B WB dt t (ms.map Prod.snd) = some b ∧ Tied A B a b := by
  induction ms using List.reverseRecOn with
  | nil =>
    obtain ⟨G, hA, hB⟩ := common ha hb h WA WB hz
    have sA := fixup_shows ha hb h (S := A) WA G hA
    have sB := fixup_shows ha hb h (S := B) WB G hB
    rw [← h.sol] at sB
    rcases bound_same ha hb h hoA hoB _ _ _ sA sB with ⟨e1, e2⟩ | ⟨a, b, e1, e2, hA', hB'⟩
    · left
      simp [run, e1, e2]
    · right
      refine ⟨⟨a, dt, t⟩, ⟨b, dt, t⟩, ?_, ?_, rfl, rfl, _, hA', hB'⟩
      · simp [run, e1]
      · simp [run, e2]
  | append_singleton ms m ih =>
    have snoc : ∀ (S : Setup K) (W : World (Cell K)) (l : List (Mem K)) (x : Mem K), run S W dt t (l ++ [x]) = (run S W dt t l).bind (step S x) := by
      intro S W l x
      unfold run
      cases bound S (fixup S W) with
      | none => rfl
      | some W1 =>
        simp only [Option.bind_some, List.foldlM_append]
        cases List.foldlM (fun s m => step S m s) ({ W := W1, dt := dt, t := t } : State K) l with
        | none => rfl
        | some s => simp
    rw [List.map_append, List.map_append]
    simp only [List.map_cons, List.map_nil]
    rw [snoc, snoc]
    have hc' : CleanRun A WA dt t (ms.map Prod.fst) := by
      intro pre x post s e hr
      exact hc pre x (post ++ [m.1]) s (by rw [List.map_append, e]; simp) hr
    rcases ih hc' with ⟨e1, e2⟩ | ⟨a, b, e1, e2, ht⟩
    · left; rw [e1, e2]; exact ⟨rfl, rfl⟩
    · rw [e1, e2]
      exact tied_step ha hb h hoA hoB m.1 m.2 a b ht (hc (ms.map Prod.fst) m.1 [] a (by simp) e1)

theorem zones_of_tied {a b : State K} (ht : Tied A B a b) : SameZones A B a.W b.W := by
  obtain ⟨-, -, G, hA, hB⟩ := ht
  have sA := shows_of_holds ha a.W G hA
  have sB := shows_of_holds hb b.W G hB
  intro a1 a2 a3 b1 b2 b3 i j k i' j' k' ra rb aa ab e1 e2 e3
  rw [sA _ _ _ _ _ _ ra aa, sB _ _ _ _ _ _ rb ab, e1, e2, e3]

end two

/-- **C126 (division of the grid).** Two builds that differ only in how the grid is divided between ranks, started from the same
zones, whatever their memory holds: after any number of steps both have stopped or both are at the same time, with the same next
step and the same variables in every zone. It is enough that no recovery fails in one of the two. Missing part: upper azimuthal
outflow (`C126_full_false`) and failed recoveries (C123). -/
theorem C126_division_partial (A B : Setup K) (ha : A.WF) (hb : B.WF) (h : SameProblem A B) (hoA : NoUpperOutflow A)
    (WA WB : World (Cell K)) (hz : SameZones A B WA WB) (dt t : K) (ms : List (Mem K × Mem K))
    (hc : CleanRun A WA dt t (ms.map Prod.fst)) :
    SameOutcome A B (run A WA dt t (ms.map Prod.fst)) (run B WB dt t (ms.map Prod.snd)) := by
  have hoB : NoUpperOutflow B := by
    intro hr
    rw [thin_iff hb.2.2, ← h.d3.1, ← thin_iff ha.2.2]
    exact hoA (by rw [h.d3.2.2, hr])
  rcases tied_run ha hb h hoA hoB WA WB hz dt t ms hc with ⟨e1, e2⟩ | ⟨a, b, e1, e2, ht⟩
  · exact Or.inl ⟨e1, e2⟩
  · exact Or.inr ⟨a, b, e1, e2, ht.1, ht.2.1, zones_of_tied ha hb h ht⟩

/-- **C126 (memory).** What is left in the work arrays and in the half-step array has no effect on a run without failed recoveries. -/
theorem C126_memory (A : Setup K) (ha : A.WF) (hoA : NoUpperOutflow A) (W : World (Cell K)) (dt t : K) (ms : List (Mem K × Mem K))
    (hc : CleanRun A W dt t (ms.map Prod.fst)) :
    SameOutcome A A (run A W dt t (ms.map Prod.fst)) (run A W dt t (ms.map Prod.snd)) := by
  refine C126_division_partial A A ha ha ⟨rfl, ⟨rfl, rfl, rfl⟩, ⟨rfl, rfl, rfl⟩, ⟨rfl, rfl, rfl⟩, rfl, rfl, rfl⟩ hoA W W ?_ dt t ms hc
  have inj : ∀ d : Dim, d.WF → ∀ c c' i i', act d i → act d i' → glob d c i = glob d c' i' → c = c' ∧ i = i' := by
    intro d hd c c' i i' hi hi' e
    have hp := hd.N_pos
    unfold act at hi hi'
    have key : ∀ c i, NG ≤ i ∧ i < d.N + NG → glob d c i / d.N = c := by
      intro c i hi
      have e : glob d c i = (i - NG) + d.N * c := by unfold glob; ring
      rw [e, Int.add_mul_ediv_left _ _ (by omega), Int.ediv_eq_zero_of_lt (by omega) (by omega)]; ring
    have hc : c = c' := by rw [← key c i hi, ← key c' i' hi', e]
    subst hc
    unfold glob at e
    exact ⟨rfl, by omega⟩
  intro a1 a2 a3 b1 b2 b3 i j k i' j' k' _ _ aa ab e1 e2 e3
  obtain ⟨rfl, rfl⟩ := inj _ ha.1 _ _ _ _ aa.1 ab.1 e1
  obtain ⟨rfl, rfl⟩ := inj _ ha.2.1 _ _ _ _ aa.2.1 ab.2.1 e2
  obtain ⟨rfl, rfl⟩ := inj _ ha.2.2 _ _ _ _ aa.2.2 ab.2.2 e3
  rfl

/-- The full statement: nothing about the boundaries or the recoveries. -/
def FullC126 : Prop := ∀ (A B : Setup ℚ), A.WF → B.WF → SameProblem A B → ∀ (WA WB : World (Cell ℚ)), SameZones A B WA WB →
  ∀ (dt t : ℚ) (ms : List (Mem ℚ × Mem ℚ)), SameOutcome A B (run A WA dt t (ms.map Prod.fst)) (run B WB dt t (ms.map Prod.snd))

/-! ## Witnesses -/

/-- Upwind advection of the density towards the lower end of the third direction. -/
def drift : Solver ℚ where
  num d _ _ _ v := fun q => if d = 2 ∧ q = 0 then -(v 3 0) else 0
  speed _ _ _ _ _ := 1
  source _ _ _ _ _ := fun _ => 0
  cons _ _ _ v := v
  inv _ _ _ U _ := U
  flag _ _ _ _ _ := 0
  fix _ _ _ v := v
  inflow _ _ _ v := v
  dx _ := 1
  next _ _ _ dt _ := dt
  mks := false
  noIn := ⟨true, true, true, true⟩

/-- One column of six zones on one or two ranks. -/
def column (N C : ℤ) (b : BC) : Setup ℚ :=
  ⟨⟨⟨1, 1, .outflow, .outflow⟩, ⟨1, 1, .outflow, .outflow⟩, ⟨N, C, b, b⟩, fun _ _ => 1, fun _ _ _ => ⟨fun _ => 0, 0⟩, fun _ _ _ => ⟨fun _ => 0, 0⟩⟩, drift⟩

/-- Density rising along the column. -/
def ramp (N : ℤ) : World (Cell ℚ) := fun _ _ c3 _ _ k => ⟨fun _ => ((c3 * N + k : ℤ) : ℚ), 0⟩

/-- Memory. -/
def mem0 : Mem ℚ := ⟨fun _ _ _ => blank, fun _ _ _ => blank, fun _ _ _ _ _ _ => ⟨fun _ => 0, 0⟩⟩

/-- Other memory. -/
def mem1 : Mem ℚ := ⟨fun _ _ _ => ⟨(fun _ _ _ _ => 5, fun _ _ _ _ => 6, fun _ _ _ _ => 7), ⟨fun _ _ _ => 1, fun _ _ _ => 2, fun _ _ _ => 3⟩⟩,
  fun _ _ _ => blank, fun _ _ _ _ _ _ => ⟨fun _ => 9, 0⟩⟩

theorem column_wf (N C : ℤ) (b : BC) (hN : 3 ≤ N) (hC : 1 ≤ C) : (column N C b).WF := by
  refine ⟨⟨by simp [column], by simp [column], by simp [column], by simp [column]⟩,
    ⟨by simp [column], by simp [column], by simp [column], by simp [column]⟩, ⟨?_, hC, ?_, ?_⟩⟩
  · simp only [column]; omega
  · simp [column]
  · simp only [column, NG]; omega

theorem column_same (b : BC) : SameProblem (column 6 1 b) (column 3 2 b) :=
  ⟨rfl, ⟨rfl, rfl, rfl⟩, ⟨rfl, rfl, rfl⟩, ⟨rfl, rfl, rfl⟩, rfl, rfl, rfl⟩

theorem ramp_same (b : BC) : SameZones (column 6 1 b) (column 3 2 b) (ramp 6) (ramp 3) := by
  intro a1 a2 a3 b1 b2 b3 i j k i' j' k' _ _ _ _ _ _ e3
  simp only [glob, column] at e3
  simp only [ramp]
  have : a3 * 6 + k = b3 * 3 + k' := by omega
  rw [this]

theorem column_clean (N C : ℤ) (b : BC) (W : World (Cell ℚ)) (dt t : ℚ) (ms : List (Mem ℚ)) : CleanRun (column N C b) W dt t ms := by
  have hr : ∀ st Dt Wi Wb Wf, Recovered (column N C b) (advance (column N C b) st Dt Wi Wb Wf) := by
    intro st Dt Wi Wb Wf c1 c2 c3 i j k r a
    unfold advance
    rw [if_pos (show _ ∧ _ ∧ _ from a)]
    rfl
  intro pre m post s _ _
  exact ⟨hr _ _ _ _ _, fun Wh _ => hr _ _ _ _ _⟩

/-- With periodic boundaries both divisions agree. -/
example (ms : List (Mem ℚ × Mem ℚ)) : SameOutcome (column 6 1 .periodic) (column 3 2 .periodic)
    (run (column 6 1 .periodic) (ramp 6) 1 0 (ms.map Prod.fst)) (run (column 3 2 .periodic) (ramp 3) 1 0 (ms.map Prod.snd)) :=
  C126_division_partial _ _ (column_wf _ _ _ (by norm_num) (by norm_num)) (column_wf _ _ _ (by norm_num) (by norm_num)) (column_same _)
    (by intro h; simp [column] at h) _ _ (ramp_same _) 1 0 ms (column_clean _ _ _ _ _ _ _)

/-- The density does change. -/
example : ((run (column 3 2 .periodic) (ramp 3) 1 0 [mem0]).map fun s => (s.W 0 0 1 3 3 5).prim 0) = some 6 ∧ (ramp 3 0 0 1 3 3 5).prim 0 = 8 := by
  decide +kernel

/-- **C126 (violation).** Full statement fails: with outflow on the upper azimuthal side, the zones beyond are copies of the first
zone of the last rank, which is another zone of the grid in another division. -/
theorem C126_full_false : ¬ FullC126 := by
  intro h
  have hs := h (column 6 1 .outflow) (column 3 2 .outflow) (column_wf _ _ _ (by norm_num) (by norm_num))
    (column_wf _ _ _ (by norm_num) (by norm_num)) (column_same _) (ramp 6) (ramp 3) (ramp_same _) 1 0 [(mem0, mem0)]
  have v1 : ((run (column 6 1 .outflow) (ramp 6) 1 0 [mem0]).map fun s => (s.W 0 0 0 3 3 8).prim 0) = some 6 := by decide +kernel
  have v2 : ((run (column 3 2 .outflow) (ramp 3) 1 0 [mem0]).map fun s => (s.W 0 0 1 3 3 5).prim 0) = some (15 / 2) := by decide +kernel
  simp only [List.map_cons, List.map_nil] at hs
  rcases hs with ⟨e, -⟩ | ⟨s, s', e1, e2, -, -, hz⟩
  · rw [e] at v1; simp at v1
  · rw [e1] at v1
    rw [e2] at v2
    have := hz 0 0 0 0 0 1 3 3 8 3 3 5 ⟨by simp [column], by simp [column], by simp [column]⟩ ⟨by simp [column], by simp [column], by simp [column]⟩
      ⟨by simp [column, act, NG], by simp [column, act, NG], by simp [column, act, NG]⟩
      ⟨by simp [column, act, NG], by simp [column, act, NG], by simp [column, act, NG]⟩ rfl rfl rfl
    simp only [Option.map_some, Option.some.injEq] at v1 v2
    rw [this] at v1
    rw [v1] at v2
    norm_num at v2

/-- Memory: other leftovers, same run. -/
example : SameOutcome (column 3 2 .periodic) (column 3 2 .periodic) (run (column 3 2 .periodic) (ramp 3) 1 0 [mem0])
    (run (column 3 2 .periodic) (ramp 3) 1 0 [mem1]) :=
  C126_memory _ (column_wf _ _ _ (by norm_num) (by norm_num)) (by intro h; simp [column] at h) _ 1 0 [(mem0, mem1)] (column_clean _ _ _ _ _ _ _)

end Nubhlight.FluidStep
