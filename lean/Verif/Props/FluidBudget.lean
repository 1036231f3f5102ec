import Verif.Props.FluidField
import Verif.Props.Conserve

set_option autoImplicit false
set_option linter.unusedSectionVars false

/-! # C128: conserved totals over all ranks, through whole runs -/

namespace Nubhlight.FluidStep

open Bounds Inflow Finset

variable {K : Type*} [Field K] [LinearOrder K] [IsStrictOrderedRing K]

/-! ## Specification -/

/-- Total of a conserved variable over the active zones of all ranks. -/
def conserved (S : Setup K) (W : World (Cell K)) (q : Fin 8) : K :=
  ∑ c1 ∈ range S.cfg.d1.C.toNat, ∑ c2 ∈ range S.cfg.d2.C.toNat, ∑ c3 ∈ range S.cfg.d3.C.toNat,
    ∑ i ∈ range S.cfg.d1.N.toNat, ∑ j ∈ range S.cfg.d2.N.toNat, ∑ k ∈ range S.cfg.d3.N.toNat,
      S.sol.cons (c1 * S.cfg.d1.N + i) (c2 * S.cfg.d2.N + j) (c3 * S.cfg.d3.N + k)
        (W c1 c2 c3 (i + NG) (j + NG) (k + NG)).prim q

/-- A periodic box: periodic in all directions, physics that repeats with the grid. -/
structure PeriodicBox (S : Setup K) : Prop where
  d1 : S.cfg.d1.left = .periodic ∧ S.cfg.d1.right = .periodic
  d2 : S.cfg.d2.left = .periodic ∧ S.cfg.d2.right = .periodic
  d3 : S.cfg.d3.left = .periodic ∧ S.cfg.d3.right = .periodic
  mks : S.sol.mks = false
  num1 : ∀ d I J Kk v, S.sol.num d (I + S.cfg.d1.tot) J Kk v = S.sol.num d I J Kk v
  num2 : ∀ d I J Kk v, S.sol.num d I (J + S.cfg.d2.tot) Kk v = S.sol.num d I J Kk v
  num3 : ∀ d I J Kk v, S.sol.num d I J (Kk + S.cfg.d3.tot) v = S.sol.num d I J Kk v

/-- Recovery is exact where it succeeds (C76). -/
def ExactRecovery (sol : Solver K) : Prop := ∀ I J Kk U v, sol.flag I J Kk U v = 0 → sol.cons I J Kk (sol.inv I J Kk U v) = U

/-- Recovery reproduces one of the conserved variables where it succeeds: mass, momenta and field even if the search did not find the root exactly (C219). -/
def ExactRecoveryOf (sol : Solver K) (q : Fin 8) : Prop := ∀ I J Kk U v, sol.flag I J Kk U v = 0 → sol.cons I J Kk (sol.inv I J Kk U v) q = U q

theorem ExactRecovery.of {sol : Solver K} (h : ExactRecovery sol) (q : Fin 8) : ExactRecoveryOf sol q := fun I J Kk U v hf => congrFun (h I J Kk U v hf) q

/-- Recovery reproduces one of the conserved variables to within `δ` where it succeeds. -/
def NearRecovery (sol : Solver K) (q : Fin 8) (δ : K) : Prop := ∀ I J Kk U v, sol.flag I J Kk U v = 0 → |sol.cons I J Kk (sol.inv I J Kk U v) q - U q| ≤ δ

theorem ExactRecoveryOf.near {sol : Solver K} {q : Fin 8} (h : ExactRecoveryOf sol q) : NearRecovery sol q 0 := fun I J Kk U v hf => by rw [h I J Kk U v hf, sub_self, abs_zero]

/-- The number of zones of the whole grid. -/
def zones (S : Setup K) : ℕ := S.cfg.d1.tot.toNat * S.cfg.d2.tot.toNat * S.cfg.d3.tot.toNat

/-- The floors change nothing. -/
def Unfloored (S : Setup K) (W : World (Cell K)) : Prop :=
  ∀ c1 c2 c3 i j k, Rank S c1 c2 c3 → Act S i j k → (fixup S W c1 c2 c3 i j k).prim = (W c1 c2 c3 i j k).prim

/-- A step whose full update needs no repair and no floor. The half step may need them. -/
def QuietStep (S : Setup K) (m : Mem K) (s : State K) : Prop :=
  ∀ Wh, bound S (repair S (fixup S (advance S m.pre ((1/2) * s.dt) s.W s.W (flagged m.half s.W)))) = some Wh →
    Recovered S (advance S m.cor s.dt s.W Wh (flagged s.W Wh)) ∧ Unfloored S (advance S m.cor s.dt s.W Wh (flagged s.W Wh))

/-- A run of such steps. -/
def QuietRun (S : Setup K) (W0 : World (Cell K)) (dt t : K) (ms : List (Mem K)) : Prop :=
  ∀ pre m post s, ms = pre ++ m :: post → run S W0 dt t pre = some s → QuietStep S m s

/-! ## Sums over ranks -/

theorem sum_blocks (N C : ℕ) (f : ℤ → K) :
    ∑ c ∈ range C, ∑ i ∈ range N, f ((c : ℤ) * N + i) = ∑ I ∈ range (N * C), f I := by
  induction C with
  | zero => simp
  | succ C ih =>
    rw [sum_range_succ, ih, Nat.mul_succ, sum_range_add]
    congr 1
    refine sum_congr rfl fun i _ => ?_
    push_cast
    congr 1
    ring

theorem conserved_total {S : Setup K} (hS : S.WF) (W : World (Cell K)) (G : ℤ → ℤ → ℤ → Prim K) (h : Shows S W G) (q : Fin 8) :
    conserved S W q = Conserve.total (S.cfg.d1.N.toNat * S.cfg.d1.C.toNat) (S.cfg.d2.N.toNat * S.cfg.d2.C.toNat)
      (S.cfg.d3.N.toNat * S.cfg.d3.C.toNat) fun I J Kk => S.sol.cons I J Kk (G I J Kk) q := by
  have p1 := hS.1.N_pos
  have p2 := hS.2.1.N_pos
  have p3 := hS.2.2.N_pos
  have hNG : NG = 3 := rfl
  have n1 : ((S.cfg.d1.N.toNat : ℕ) : ℤ) = S.cfg.d1.N := by omega
  have n2 : ((S.cfg.d2.N.toNat : ℕ) : ℤ) = S.cfg.d2.N := by omega
  have n3 : ((S.cfg.d3.N.toNat : ℕ) : ℤ) = S.cfg.d3.N := by omega
  unfold conserved Conserve.total
  rw [← sum_blocks _ _ fun I => ∑ j ∈ range (S.cfg.d2.N.toNat * S.cfg.d2.C.toNat), ∑ k ∈ range (S.cfg.d3.N.toNat * S.cfg.d3.C.toNat),
    S.sol.cons I j k (G I j k) q]
  refine sum_congr rfl fun c1 hc1 => ?_
  rw [mem_range] at hc1
  have e2 : ∀ I : ℤ, ∑ j ∈ range (S.cfg.d2.N.toNat * S.cfg.d2.C.toNat), ∑ k ∈ range (S.cfg.d3.N.toNat * S.cfg.d3.C.toNat), S.sol.cons I j k (G I j k) q
      = ∑ c2 ∈ range S.cfg.d2.C.toNat, ∑ c3 ∈ range S.cfg.d3.C.toNat, ∑ j ∈ range S.cfg.d2.N.toNat, ∑ k ∈ range S.cfg.d3.N.toNat,
        S.sol.cons I ((c2 : ℤ) * S.cfg.d2.N.toNat + j) ((c3 : ℤ) * S.cfg.d3.N.toNat + k)
          (G I ((c2 : ℤ) * S.cfg.d2.N.toNat + j) ((c3 : ℤ) * S.cfg.d3.N.toNat + k)) q := by
    intro I
    rw [← sum_blocks _ _ fun J => ∑ k ∈ range (S.cfg.d3.N.toNat * S.cfg.d3.C.toNat), S.sol.cons I J k (G I J k) q]
    refine sum_congr rfl fun c2 _ => ?_
    symm
    rw [sum_comm]
    refine sum_congr rfl fun j _ => ?_
    rw [← sum_blocks _ _ fun Kk => S.sol.cons I ((c2 : ℤ) * S.cfg.d2.N.toNat + j) Kk (G I ((c2 : ℤ) * S.cfg.d2.N.toNat + j) Kk) q]
  rw [sum_congr rfl fun (i : ℕ) _ => e2 ((c1 : ℤ) * S.cfg.d1.N.toNat + i)]
  symm
  rw [sum_comm]
  refine sum_congr rfl fun c2 hc2 => ?_
  rw [mem_range] at hc2
  rw [sum_comm]
  refine sum_congr rfl fun c3 hc3 => ?_
  rw [mem_range] at hc3
  refine sum_congr rfl fun i hi => sum_congr rfl fun j hj => sum_congr rfl fun k hk => ?_
  rw [mem_range] at hi hj hk
  symm
  rw [h c1 c2 c3 _ _ _ ⟨⟨by omega, by omega⟩, ⟨by omega, by omega⟩, ⟨by omega, by omega⟩⟩
    ⟨⟨by omega, by omega⟩, ⟨by omega, by omega⟩, ⟨by omega, by omega⟩⟩]
  have g : ∀ (d : Dim) (c i : ℤ), glob d c (i + NG) = c * d.N + i := by intro d c i; unfold glob; ring
  rw [g, g, g, n1, n2, n3]

/-! ## Periodic grids -/

theorem src_periodic {d : Dim} (hd : d.WF) (hl : d.left = .periodic ∧ d.right = .periodic) (I : ℤ) (h0 : -3 ≤ I) (h1 : I ≤ 2) :
    src d (I + d.tot) = src d I := by
  have hN := hd.N_pos
  have hC := hd.C_pos
  have hNG : NG = 3 := rfl
  by_cases ht : d.N < NG
  · have h1' := hd.thin ht
    have hn : d.N = 1 := h1'.2 (by simp [Dim.periodic, hl.1, hl.2])
    have htot : d.tot = 1 := by unfold Dim.tot; rw [hn, h1'.1]; rfl
    unfold src
    rw [htot]
    split_ifs <;> omega
  · have htot : 3 ≤ d.tot := by unfold Dim.tot; nlinarith
    unfold src
    simp only [hl.1, hl.2]
    split_ifs <;> omega

theorem ext_periodic {S : Setup K} (hp : PeriodicBox S) (G : ℤ → ℤ → ℤ → Prim K) (I J Kk : ℤ) :
    ext S G I J Kk = G (src S.cfg.d1 I) (src S.cfg.d2 J) (src S.cfg.d3 Kk) := by
  have hb : ¬ BeyondPole S.cfg.d2 J := by
    unfold BeyondPole
    rw [hp.d2.1, hp.d2.2]
    simp
  unfold ext
  simp only [hp.mks, Bool.false_eq_true, false_and, if_false]
  unfold expected
  simp only
  rw [if_neg hb]
  unfold radial
  simp only [hp.d1.1, hp.d1.2, ite_self]

section flux

variable {S : Setup K} (hS : S.WF) (hp : PeriodicBox S) (G : ℤ → ℤ → ℤ → Prim K)

/-- Flux of `fluxcalc` on the extended grid, without the loop bounds. -/
def rawAt (S : Setup K) (E : ℤ → ℤ → ℤ → Prim K) : Fin 3 → ℤ → ℤ → ℤ → Prim K
  | 0, i, j, k => S.sol.num 0 i j k fun s => E (i - 3 + (s : ℤ)) j k
  | 1, i, j, k => S.sol.num 1 i j k fun s => E i (j - 3 + (s : ℤ)) k
  | 2, i, j, k => S.sol.num 2 i j k fun s => E i j (k - 3 + (s : ℤ))

include hS hp

theorem ext1 (I J Kk : ℤ) (h0 : -3 ≤ I) (h1 : I ≤ 2) : ext S G (I + S.cfg.d1.tot) J Kk = ext S G I J Kk := by
  rw [ext_periodic hp, ext_periodic hp, src_periodic hS.1 hp.d1 I h0 h1]

theorem ext2 (I J Kk : ℤ) (h0 : -3 ≤ J) (h1 : J ≤ 2) : ext S G I (J + S.cfg.d2.tot) Kk = ext S G I J Kk := by
  rw [ext_periodic hp, ext_periodic hp, src_periodic hS.2.1 hp.d2 J h0 h1]

theorem ext3 (I J Kk : ℤ) (h0 : -3 ≤ Kk) (h1 : Kk ≤ 2) : ext S G I J (Kk + S.cfg.d3.tot) = ext S G I J Kk := by
  rw [ext_periodic hp, ext_periodic hp, src_periodic hS.2.2 hp.d3 Kk h0 h1]

theorem raw1 (d : Fin 3) (I J Kk : ℤ) (hI : I = -1 ∧ d ≠ 0 ∨ I = 0) : rawAt S (ext S G) d (I + S.cfg.d1.tot) J Kk = rawAt S (ext S G) d I J Kk := by
  fin_cases d
  · have : I = 0 := by rcases hI with ⟨-, h⟩ | h; · exact absurd rfl h
                       · exact h
    simp only [rawAt, hp.num1]
    congr 1
    funext s
    have hs : (s : ℤ) < 6 := by have := s.2; omega
    rw [← ext1 hS hp G (I - 3 + (s : ℤ)) J Kk (by omega) (by omega)]
    congr 1; ring
  all_goals
    simp only [rawAt, hp.num1]
    congr 1
    funext s
    exact ext1 hS hp G I _ _ (by omega) (by omega)

theorem raw2 (d : Fin 3) (I J Kk : ℤ) (hJ : J = -1 ∧ d ≠ 1 ∨ J = 0) : rawAt S (ext S G) d I (J + S.cfg.d2.tot) Kk = rawAt S (ext S G) d I J Kk := by
  fin_cases d
  · simp only [rawAt, hp.num2]
    congr 1
    funext s
    exact ext2 hS hp G _ J _ (by omega) (by omega)
  · have : J = 0 := by rcases hJ with ⟨-, h⟩ | h; · exact absurd rfl h
                       · exact h
    simp only [rawAt, hp.num2]
    congr 1
    funext s
    have hs : (s : ℤ) < 6 := by have := s.2; omega
    rw [← ext2 hS hp G I (J - 3 + (s : ℤ)) Kk (by omega) (by omega)]
    congr 1; ring
  · simp only [rawAt, hp.num2]
    congr 1
    funext s
    exact ext2 hS hp G _ J _ (by omega) (by omega)

theorem raw3 (d : Fin 3) (I J Kk : ℤ) (hK : Kk = -1 ∧ d ≠ 2 ∨ Kk = 0) : rawAt S (ext S G) d I J (Kk + S.cfg.d3.tot) = rawAt S (ext S G) d I J Kk := by
  fin_cases d
  · simp only [rawAt, hp.num3]
    congr 1
    funext s
    exact ext3 hS hp G _ _ Kk (by omega) (by omega)
  · simp only [rawAt, hp.num3]
    congr 1
    funext s
    exact ext3 hS hp G _ _ Kk (by omega) (by omega)
  · have : Kk = 0 := by rcases hK with ⟨-, h⟩ | h; · exact absurd rfl h
                        · exact h
    simp only [rawAt, hp.num3]
    congr 1
    funext s
    have hs : (s : ℤ) < 6 := by have := s.2; omega
    rw [← ext3 hS hp G I J (Kk - 3 + (s : ℤ)) (by omega) (by omega)]
    congr 1; ring

/-- The fluxes through opposite sides of the grid are the same. -/
theorem flux_periodic (q : Fin 8) :
    (∀ J Kk, 0 ≤ J → J < S.cfg.d2.tot → 0 ≤ Kk → Kk < S.cfg.d3.tot →
      (rankFlux S.sol S.whole zeroOrigin S.sol.noIn (ext S G) blank).1 S.cfg.d1.tot J Kk q =
      (rankFlux S.sol S.whole zeroOrigin S.sol.noIn (ext S G) blank).1 0 J Kk q) ∧
    (∀ I Kk, 0 ≤ I → I < S.cfg.d1.tot → 0 ≤ Kk → Kk < S.cfg.d3.tot →
      (rankFlux S.sol S.whole zeroOrigin S.sol.noIn (ext S G) blank).2.1 I S.cfg.d2.tot Kk q =
      (rankFlux S.sol S.whole zeroOrigin S.sol.noIn (ext S G) blank).2.1 I 0 Kk q) ∧
    (∀ I J, 0 ≤ I → I < S.cfg.d1.tot → 0 ≤ J → J < S.cfg.d2.tot →
      (rankFlux S.sol S.whole zeroOrigin S.sol.noIn (ext S G) blank).2.2 I J S.cfg.d3.tot q =
      (rankFlux S.sol S.whole zeroOrigin S.sol.noIn (ext S G) blank).2.2 I J 0 q) := by
  have t1 : 1 ≤ S.cfg.d1.tot := by unfold Dim.tot; nlinarith [hS.1.N_pos, hS.1.C_pos]
  have t2 : 1 ≤ S.cfg.d2.tot := by unfold Dim.tot; nlinarith [hS.2.1.N_pos, hS.2.1.C_pos]
  have t3 : 1 ≤ S.cfg.d3.tot := by unfold Dim.tot; nlinarith [hS.2.2.N_pos, hS.2.2.C_pos]
  set F := rawFlux S.sol S.whole zeroOrigin (ext S G) (blank (K := K)).F with hF
  have hflux : rankFlux S.sol S.whole zeroOrigin S.sol.noIn (ext S G) blank = withB F (FluxCT.fluxCT S.whole (magnetic F) (blank (K := K)).emf) := by
    unfold rankFlux
    simp only [hp.mks, Bool.false_eq_true, if_false, ← hF]
  have w1 : S.whole.n1 = S.cfg.d1.tot := rfl
  have w2 : S.whole.n2 = S.cfg.d2.tot := rfl
  have w3 : S.whole.n3 = S.cfg.d3.tot := rfl
  -- raw fluxes inside their loops
  have f1 : ∀ I J Kk, 0 ≤ I → I ≤ S.cfg.d1.tot → -1 ≤ J → J ≤ S.cfg.d2.tot → -1 ≤ Kk → Kk ≤ S.cfg.d3.tot → F.1 I J Kk = rawAt S (ext S G) 0 I J Kk := by
    intro I J Kk _ _ _ _ _ _
    have b : FluxCT.inBox 0 S.whole.n1 (-1) S.whole.n2 (-1) S.whole.n3 I J Kk = true := by rw [FluxCT.inBox_eq_true]; omega
    simp only [hF, rawFlux, b, if_true, zeroOrigin, zero_add, rawAt]
  have f2 : ∀ I J Kk, -1 ≤ I → I ≤ S.cfg.d1.tot → 0 ≤ J → J ≤ S.cfg.d2.tot → -1 ≤ Kk → Kk ≤ S.cfg.d3.tot → F.2.1 I J Kk = rawAt S (ext S G) 1 I J Kk := by
    intro I J Kk _ _ _ _ _ _
    have b : FluxCT.inBox (-1) S.whole.n1 0 S.whole.n2 (-1) S.whole.n3 I J Kk = true := by rw [FluxCT.inBox_eq_true]; omega
    simp only [hF, rawFlux, b, if_true, zeroOrigin, zero_add, rawAt]
  have f3 : ∀ I J Kk, -1 ≤ I → I ≤ S.cfg.d1.tot → -1 ≤ J → J ≤ S.cfg.d2.tot → 0 ≤ Kk → Kk ≤ S.cfg.d3.tot → F.2.2 I J Kk = rawAt S (ext S G) 2 I J Kk := by
    intro I J Kk _ _ _ _ _ _
    have b : FluxCT.inBox (-1) S.whole.n1 (-1) S.whole.n2 0 S.whole.n3 I J Kk = true := by rw [FluxCT.inBox_eq_true]; omega
    simp only [hF, rawFlux, b, if_true, zeroOrigin, zero_add, rawAt]
  -- electromotive forces
  have ebox : ∀ I J Kk, 0 ≤ I → I ≤ S.cfg.d1.tot → 0 ≤ J → J ≤ S.cfg.d2.tot → 0 ≤ Kk → Kk ≤ S.cfg.d3.tot →
      FluxCT.inBox 0 S.whole.n1 0 S.whole.n2 0 S.whole.n3 I J Kk = true := by
    intro I J Kk _ _ _ _ _ _; rw [FluxCT.inBox_eq_true]; omega
  have r1 : ∀ d J Kk, rawAt S (ext S G) d S.cfg.d1.tot J Kk = rawAt S (ext S G) d 0 J Kk := by
    intro d J Kk
    have := raw1 hS hp G d 0 J Kk (Or.inr rfl)
    rwa [zero_add] at this
  have r1' : ∀ d J Kk, d ≠ 0 → rawAt S (ext S G) d (S.cfg.d1.tot - 1) J Kk = rawAt S (ext S G) d (0 - 1) J Kk := by
    intro d J Kk hd
    have := raw1 hS hp G d (-1) J Kk (Or.inl ⟨rfl, hd⟩)
    rw [show S.cfg.d1.tot - 1 = -1 + S.cfg.d1.tot by ring, this]; rfl
  have r2 : ∀ d I Kk, rawAt S (ext S G) d I S.cfg.d2.tot Kk = rawAt S (ext S G) d I 0 Kk := by
    intro d I Kk
    have := raw2 hS hp G d I 0 Kk (Or.inr rfl)
    rwa [zero_add] at this
  have r2' : ∀ d I Kk, d ≠ 1 → rawAt S (ext S G) d I (S.cfg.d2.tot - 1) Kk = rawAt S (ext S G) d I (0 - 1) Kk := by
    intro d I Kk hd
    have := raw2 hS hp G d I (-1) Kk (Or.inl ⟨rfl, hd⟩)
    rw [show S.cfg.d2.tot - 1 = -1 + S.cfg.d2.tot by ring, this]; rfl
  have r3 : ∀ d I J, rawAt S (ext S G) d I J S.cfg.d3.tot = rawAt S (ext S G) d I J 0 := by
    intro d I J
    have := raw3 hS hp G d I J 0 (Or.inr rfl)
    rwa [zero_add] at this
  have r3' : ∀ d I J, d ≠ 2 → rawAt S (ext S G) d I J (S.cfg.d3.tot - 1) = rawAt S (ext S G) d I J (0 - 1) := by
    intro d I J hd
    have := raw3 hS hp G d I J (-1) (Or.inl ⟨rfl, hd⟩)
    rw [show S.cfg.d3.tot - 1 = -1 + S.cfg.d3.tot by ring, this]; rfl
  set e := FluxCT.emfCalc S.whole (magnetic F) (blank (K := K)).emf with he
  have v1 : ∀ I J Kk, 0 ≤ I → I ≤ S.cfg.d1.tot → 0 ≤ J → J ≤ S.cfg.d2.tot → 0 ≤ Kk → Kk ≤ S.cfg.d3.tot → e.e1 I J Kk =
      (1/4) * (rawAt S (ext S G) 1 I J Kk 7 + rawAt S (ext S G) 1 I J (Kk - 1) 7 - rawAt S (ext S G) 2 I J Kk 6 - rawAt S (ext S G) 2 I (J - 1) Kk 6) := by
    intro I J Kk a b c d e' f
    simp only [he, FluxCT.emfCalc, magnetic, ebox I J Kk a b c d e' f, if_true]
    rw [f2 I J Kk, f2 I J (Kk - 1), f3 I J Kk, f3 I (J - 1) Kk] <;> omega
  have v2 : ∀ I J Kk, 0 ≤ I → I ≤ S.cfg.d1.tot → 0 ≤ J → J ≤ S.cfg.d2.tot → 0 ≤ Kk → Kk ≤ S.cfg.d3.tot → e.e2 I J Kk =
      -(1/4) * (rawAt S (ext S G) 0 I J Kk 7 + rawAt S (ext S G) 0 I J (Kk - 1) 7 - rawAt S (ext S G) 2 I J Kk 5 - rawAt S (ext S G) 2 (I - 1) J Kk 5) := by
    intro I J Kk a b c d e' f
    simp only [he, FluxCT.emfCalc, magnetic, ebox I J Kk a b c d e' f, if_true]
    rw [f1 I J Kk, f1 I J (Kk - 1), f3 I J Kk, f3 (I - 1) J Kk] <;> omega
  have v3 : ∀ I J Kk, 0 ≤ I → I ≤ S.cfg.d1.tot → 0 ≤ J → J ≤ S.cfg.d2.tot → 0 ≤ Kk → Kk ≤ S.cfg.d3.tot → e.e3 I J Kk =
      (1/4) * (rawAt S (ext S G) 0 I J Kk 6 + rawAt S (ext S G) 0 I (J - 1) Kk 6 - rawAt S (ext S G) 1 I J Kk 5 - rawAt S (ext S G) 1 (I - 1) J Kk 5) := by
    intro I J Kk a b c d e' f
    simp only [he, FluxCT.emfCalc, magnetic, ebox I J Kk a b c d e' f, if_true]
    rw [f1 I J Kk, f1 I (J - 1) Kk, f2 I J Kk, f2 (I - 1) J Kk] <;> omega
  rw [hflux]
  refine ⟨?_, ?_, ?_⟩
  · intro J Kk j0 j1 k0 k1
    have bA : FluxCT.inBox 0 S.whole.n1 0 (S.whole.n2 - 1) 0 (S.whole.n3 - 1) S.cfg.d1.tot J Kk = true := by rw [FluxCT.inBox_eq_true]; omega
    have bB : FluxCT.inBox 0 S.whole.n1 0 (S.whole.n2 - 1) 0 (S.whole.n3 - 1) 0 J Kk = true := by rw [FluxCT.inBox_eq_true]; omega
    simp only [withB, FluxCT.fluxCT, ← he, bA, bB, if_true]
    rw [v3 _ _ _ (by omega) (by omega) (by omega) (by omega) (by omega) (by omega), v3 _ (J + 1) _ (by omega) (by omega) (by omega) (by omega) (by omega) (by omega),
      v3 0 J _ (by omega) (by omega) (by omega) (by omega) (by omega) (by omega), v3 0 (J + 1) _ (by omega) (by omega) (by omega) (by omega) (by omega) (by omega),
      v2 _ _ _ (by omega) (by omega) (by omega) (by omega) (by omega) (by omega), v2 _ _ (Kk + 1) (by omega) (by omega) (by omega) (by omega) (by omega) (by omega),
      v2 0 J _ (by omega) (by omega) (by omega) (by omega) (by omega) (by omega), v2 0 J (Kk + 1) (by omega) (by omega) (by omega) (by omega) (by omega) (by omega),
      f1 _ _ _ (by omega) (by omega) (by omega) (by omega) (by omega) (by omega), f1 0 J _ (by omega) (by omega) (by omega) (by omega) (by omega) (by omega)]
    simp only [r1, r1' 1 _ _ (by decide), r1' 2 _ _ (by decide)]
  · intro I Kk i0 i1 k0 k1
    have bA : FluxCT.inBox 0 (S.whole.n1 - 1) 0 S.whole.n2 0 (S.whole.n3 - 1) I S.cfg.d2.tot Kk = true := by rw [FluxCT.inBox_eq_true]; omega
    have bB : FluxCT.inBox 0 (S.whole.n1 - 1) 0 S.whole.n2 0 (S.whole.n3 - 1) I 0 Kk = true := by rw [FluxCT.inBox_eq_true]; omega
    simp only [withB, FluxCT.fluxCT, ← he, bA, bB, if_true]
    rw [v3 _ _ _ (by omega) (by omega) (by omega) (by omega) (by omega) (by omega), v3 (I + 1) _ _ (by omega) (by omega) (by omega) (by omega) (by omega) (by omega),
      v3 I 0 _ (by omega) (by omega) (by omega) (by omega) (by omega) (by omega), v3 (I + 1) 0 _ (by omega) (by omega) (by omega) (by omega) (by omega) (by omega),
      v1 _ _ _ (by omega) (by omega) (by omega) (by omega) (by omega) (by omega), v1 _ _ (Kk + 1) (by omega) (by omega) (by omega) (by omega) (by omega) (by omega),
      v1 I 0 _ (by omega) (by omega) (by omega) (by omega) (by omega) (by omega), v1 I 0 (Kk + 1) (by omega) (by omega) (by omega) (by omega) (by omega) (by omega),
      f2 _ _ _ (by omega) (by omega) (by omega) (by omega) (by omega) (by omega), f2 I 0 _ (by omega) (by omega) (by omega) (by omega) (by omega) (by omega)]
    simp only [r2, r2' 0 _ _ (by decide), r2' 2 _ _ (by decide)]
  · intro I J i0 i1 j0 j1
    have bA : FluxCT.inBox 0 (S.whole.n1 - 1) 0 (S.whole.n2 - 1) 0 S.whole.n3 I J S.cfg.d3.tot = true := by rw [FluxCT.inBox_eq_true]; omega
    have bB : FluxCT.inBox 0 (S.whole.n1 - 1) 0 (S.whole.n2 - 1) 0 S.whole.n3 I J 0 = true := by rw [FluxCT.inBox_eq_true]; omega
    simp only [withB, FluxCT.fluxCT, ← he, bA, bB, if_true]
    rw [v2 _ _ _ (by omega) (by omega) (by omega) (by omega) (by omega) (by omega), v2 (I + 1) _ _ (by omega) (by omega) (by omega) (by omega) (by omega) (by omega),
      v2 I _ 0 (by omega) (by omega) (by omega) (by omega) (by omega) (by omega), v2 (I + 1) _ 0 (by omega) (by omega) (by omega) (by omega) (by omega) (by omega),
      v1 _ _ _ (by omega) (by omega) (by omega) (by omega) (by omega) (by omega), v1 _ (J + 1) _ (by omega) (by omega) (by omega) (by omega) (by omega) (by omega),
      v1 I _ 0 (by omega) (by omega) (by omega) (by omega) (by omega) (by omega), v1 I (J + 1) 0 (by omega) (by omega) (by omega) (by omega) (by omega) (by omega),
      f3 _ _ _ (by omega) (by omega) (by omega) (by omega) (by omega) (by omega), f3 I _ 0 (by omega) (by omega) (by omega) (by omega) (by omega) (by omega)]
    simp only [r3, r3' 0 _ _ (by decide), r3' 1 _ _ (by decide)]

end flux

/-! ## Totals -/

theorem conserved_congr {S : Setup K} (hS : S.WF) (W W' : World (Cell K))
    (h : ∀ c1 c2 c3 i j k, Rank S c1 c2 c3 → Act S i j k → (W' c1 c2 c3 i j k).prim = (W c1 c2 c3 i j k).prim) (q : Fin 8) :
    conserved S W' q = conserved S W q := by
  obtain ⟨G, hG⟩ := exists_shows hS W
  rw [conserved_total hS W G hG, conserved_total hS W' G]
  intro c1 c2 c3 i j k r a
  rw [h c1 c2 c3 i j k r a, hG c1 c2 c3 i j k r a]

theorem bound_act {S : Setup K} (hS : S.WF) (W W' : World (Cell K)) (hb : bound S W = some W') (c1 c2 c3 i j k : ℤ) (r : Rank S c1 c2 c3)
    (a : Act S i j k) : (W' c1 c2 c3 i j k).prim = (W c1 c2 c3 i j k).prim := by
  obtain ⟨E, h1, h2⟩ := bound_any hS W W' hb
  rw [h1 c1 c2 c3 i j k r (all_of_act a.1) (all_of_act a.2.1) (all_of_act a.2.2), h2 c1 c2 c3 i j k r a]

theorem sum1_near (a : ℕ) (f g : ℕ → K) (δ : K) (h : ∀ i ∈ range a, |f i - g i| ≤ δ) : |∑ i ∈ range a, f i - ∑ i ∈ range a, g i| ≤ a * δ := by
  rw [← sum_sub_distrib]
  refine (abs_sum_le_sum_abs _ _).trans ((sum_le_sum h).trans ?_)
  rw [sum_const, card_range, nsmul_eq_mul]

theorem sum3_near (a b c : ℕ) (f g : ℕ → ℕ → ℕ → K) (δ : K) (h : ∀ i ∈ range a, ∀ j ∈ range b, ∀ k ∈ range c, |f i j k - g i j k| ≤ δ) :
    |∑ i ∈ range a, ∑ j ∈ range b, ∑ k ∈ range c, f i j k - ∑ i ∈ range a, ∑ j ∈ range b, ∑ k ∈ range c, g i j k| ≤ (a * b * c : ℕ) * δ := by
  refine (sum1_near a _ _ (b * (c * δ)) fun i hi => sum1_near b _ _ (c * δ) fun j hj => sum1_near c _ _ δ fun k hk => h i hi j hj k hk).trans (le_of_eq ?_)
  push_cast
  ring

/-- The change of a total in a full update that needs no repair and no floor: sources, fluxes through the outer faces of the whole grid, and what the recovery is off by. -/
theorem pass_near {S : Setup K} (hS : S.WF) (q : Fin 8) (δ : K) (hx : NearRecovery S.sol q δ) (st : ℤ → ℤ → ℤ → Stale K) (Dt : K)
    (Wi Wb Wf W' : World (Cell K)) (Ei Eb : ℤ → ℤ → ℤ → Prim K) (hi : HoldsE S Wi Ei) (hb : HoldsE S Wb Eb)
    (hc : Recovered S (advance S st Dt Wi Wb Wf)) (hf : Unfloored S (advance S st Dt Wi Wb Wf))
    (hbd : bound S (repair S (fixup S (advance S st Dt Wi Wb Wf))) = some W') :
    |conserved S W' q - (conserved S Wi q + Dt * (∑ I ∈ range S.cfg.d1.tot.toNat, ∑ J ∈ range S.cfg.d2.tot.toNat, ∑ Kk ∈ range S.cfg.d3.tot.toNat,
        S.sol.source I J Kk Dt (Eb I J Kk) q)
      - Dt * ((∑ J ∈ range S.cfg.d2.tot.toNat, ∑ Kk ∈ range S.cfg.d3.tot.toNat,
          ((rankFlux S.sol S.whole zeroOrigin S.sol.noIn Eb blank).1 S.cfg.d1.tot J Kk q - (rankFlux S.sol S.whole zeroOrigin S.sol.noIn Eb blank).1 0 J Kk q)) / S.sol.dx 0
        + (∑ I ∈ range S.cfg.d1.tot.toNat, ∑ Kk ∈ range S.cfg.d3.tot.toNat,
          ((rankFlux S.sol S.whole zeroOrigin S.sol.noIn Eb blank).2.1 I S.cfg.d2.tot Kk q - (rankFlux S.sol S.whole zeroOrigin S.sol.noIn Eb blank).2.1 I 0 Kk q)) / S.sol.dx 1
        + (∑ I ∈ range S.cfg.d1.tot.toNat, ∑ J ∈ range S.cfg.d2.tot.toNat,
          ((rankFlux S.sol S.whole zeroOrigin S.sol.noIn Eb blank).2.2 I J S.cfg.d3.tot q - (rankFlux S.sol S.whole zeroOrigin S.sol.noIn Eb blank).2.2 I J 0 q)) / S.sol.dx 2))| ≤ zones S * δ := by
  have hsI : Shows S Wi Ei := fun c1 c2 c3 i j k r a => hi c1 c2 c3 i j k r (all_of_act a.1) (all_of_act a.2.1) (all_of_act a.2.2)
  have hw := advance_whole hS st Dt Wi Wb Wf Ei Eb hi hb
  set R := rankAdvance S.sol S.whole zeroOrigin S.sol.noIn Dt Ei Eb blank with hR
  have hsF : Shows S (advance S st Dt Wi Wb Wf) (fun I J Kk => (R I J Kk).prim) := by
    intro c1 c2 c3 i j k r a
    rw [hw c1 c2 c3 i j k r.1 r.2.1 r.2.2 a.1 a.2.1 a.2.2]
  have hsame : conserved S W' q = conserved S (advance S st Dt Wi Wb Wf) q := by
    apply conserved_congr hS
    intro c1 c2 c3 i j k r a
    rw [bound_act hS _ _ hbd c1 c2 c3 i j k r a, repair_clean hS _ (fixup_recovered _ hc) r i j k, hf c1 c2 c3 i j k r a]
  have size : ∀ d : Dim, d.WF → d.N.toNat * d.C.toNat = d.tot.toNat ∧ ((d.tot.toNat : ℕ) : ℤ) = d.tot := by
    intro d hd
    have hN := hd.N_pos
    have hC := hd.C_pos
    have e : ((d.N.toNat * d.C.toNat : ℕ) : ℤ) = d.tot := by
      push_cast
      rw [Int.toNat_of_nonneg (by omega), Int.toNat_of_nonneg (by omega)]
      rfl
    constructor
    · rw [← e]; rfl
    · rw [Int.toNat_of_nonneg]; rw [← e]; positivity
  have e1 := size _ hS.1
  have e2 := size _ hS.2.1
  have e3 := size _ hS.2.2
  have flux := Conserve.C02_budget S.cfg.d1.tot.toNat S.cfg.d2.tot.toNat S.cfg.d3.tot.toNat Dt (S.sol.dx 0) (S.sol.dx 1) (S.sol.dx 2)
    (fun I J Kk => S.sol.cons I J Kk (Ei I J Kk) q) (fun I J Kk => (rankFlux S.sol S.whole zeroOrigin S.sol.noIn Eb blank).1 I J Kk q)
    (fun I J Kk => (rankFlux S.sol S.whole zeroOrigin S.sol.noIn Eb blank).2.1 I J Kk q)
    (fun I J Kk => (rankFlux S.sol S.whole zeroOrigin S.sol.noIn Eb blank).2.2 I J Kk q)
    (fun I J Kk => S.sol.source I J Kk Dt (Eb I J Kk) q)
  simp only [e1.2, e2.2, e3.2] at flux
  rw [hsame, conserved_total hS _ _ hsF q, conserved_total hS Wi Ei hsI q, e1.1, e2.1, e3.1]
  refine le_trans (le_of_eq (congrArg (fun x => |_ - x|) flux.symm)) ?_
  unfold Conserve.total
  have each : ∀ I ∈ range S.cfg.d1.tot.toNat, ∀ J ∈ range S.cfg.d2.tot.toNat, ∀ Kk ∈ range S.cfg.d3.tot.toNat,
      |S.sol.cons I J Kk (R I J Kk).prim q - Conserve.updZone Dt (S.sol.dx 0) (S.sol.dx 1) (S.sol.dx 2) (fun I J Kk => S.sol.cons I J Kk (Ei I J Kk) q)
        (fun I J Kk => (rankFlux S.sol S.whole zeroOrigin S.sol.noIn Eb blank).1 I J Kk q) (fun I J Kk => (rankFlux S.sol S.whole zeroOrigin S.sol.noIn Eb blank).2.1 I J Kk q)
        (fun I J Kk => (rankFlux S.sol S.whole zeroOrigin S.sol.noIn Eb blank).2.2 I J Kk q) (fun I J Kk => S.sol.source I J Kk Dt (Eb I J Kk) q) I J Kk| ≤ δ := by
    intro I hI J hJ Kk hK
    rw [mem_range] at hI hJ hK
    obtain ⟨c1, i, q1, a1, z1⟩ := cover_act hS.1 I (by omega) (by omega)
    obtain ⟨c2, j, q2, a2, z2⟩ := cover_act hS.2.1 J (by omega) (by omega)
    obtain ⟨c3, k, q3, a3, z3⟩ := cover_act hS.2.2 Kk (by omega) (by omega)
    have hflag := hc c1 c2 c3 i j k ⟨q1, q2, q3⟩ ⟨a1, a2, a3⟩
    rw [hw c1 c2 c3 i j k q1 q2 q3 a1 a2 a3, z1, z2, z3, hR] at hflag
    rw [hR]
    unfold rankAdvance at hflag ⊢
    simp only [zeroOrigin, zero_add] at hflag ⊢
    have := hx _ _ _ _ _ hflag
    unfold newU at this ⊢
    simp only [zero_add] at this ⊢
    exact this
  exact sum3_near _ _ _ _ _ δ each

/-- The change of a total in a full update that needs no repair and no floor: sources, and fluxes through the outer faces of the
whole grid. -/
theorem pass_budget {S : Setup K} (hS : S.WF) (q : Fin 8) (hx : ExactRecoveryOf S.sol q) (st : ℤ → ℤ → ℤ → Stale K) (Dt : K)
    (Wi Wb Wf W' : World (Cell K)) (Ei Eb : ℤ → ℤ → ℤ → Prim K) (hi : HoldsE S Wi Ei) (hb : HoldsE S Wb Eb)
    (hc : Recovered S (advance S st Dt Wi Wb Wf)) (hf : Unfloored S (advance S st Dt Wi Wb Wf))
    (hbd : bound S (repair S (fixup S (advance S st Dt Wi Wb Wf))) = some W') :
    conserved S W' q = conserved S Wi q + Dt * (∑ I ∈ range S.cfg.d1.tot.toNat, ∑ J ∈ range S.cfg.d2.tot.toNat, ∑ Kk ∈ range S.cfg.d3.tot.toNat,
        S.sol.source I J Kk Dt (Eb I J Kk) q)
      - Dt * ((∑ J ∈ range S.cfg.d2.tot.toNat, ∑ Kk ∈ range S.cfg.d3.tot.toNat,
          ((rankFlux S.sol S.whole zeroOrigin S.sol.noIn Eb blank).1 S.cfg.d1.tot J Kk q - (rankFlux S.sol S.whole zeroOrigin S.sol.noIn Eb blank).1 0 J Kk q)) / S.sol.dx 0
        + (∑ I ∈ range S.cfg.d1.tot.toNat, ∑ Kk ∈ range S.cfg.d3.tot.toNat,
          ((rankFlux S.sol S.whole zeroOrigin S.sol.noIn Eb blank).2.1 I S.cfg.d2.tot Kk q - (rankFlux S.sol S.whole zeroOrigin S.sol.noIn Eb blank).2.1 I 0 Kk q)) / S.sol.dx 1
        + (∑ I ∈ range S.cfg.d1.tot.toNat, ∑ J ∈ range S.cfg.d2.tot.toNat,
          ((rankFlux S.sol S.whole zeroOrigin S.sol.noIn Eb blank).2.2 I J S.cfg.d3.tot q - (rankFlux S.sol S.whole zeroOrigin S.sol.noIn Eb blank).2.2 I J 0 q)) / S.sol.dx 2) := by
  have := pass_near hS q 0 hx.near st Dt Wi Wb Wf W' Ei Eb hi hb hc hf hbd
  rw [mul_zero] at this
  exact sub_eq_zero.1 (abs_eq_zero.1 (le_antisymm this (abs_nonneg _)))

theorem PeriodicBox.noOutflow {S : Setup K} (hp : PeriodicBox S) : NoUpperOutflow S := by
  unfold NoUpperOutflow
  simp [hp.d1.2, hp.d2.2, hp.d3.2]

theorem step_near {S : Setup K} (hS : S.WF) (hp : PeriodicBox S) (q : Fin 8) (δ : K) (hx : NearRecovery S.sol q δ)
    (hsrc : ∀ I J Kk Dt v, S.sol.source I J Kk Dt v q = 0) (m : Mem K) (s s' : State K) (hE : ∃ E, HoldsE S s.W E)
    (hq : QuietStep S m s) (h : step S m s = some s') : |conserved S s'.W q - conserved S s.W q| ≤ zones S * δ ∧ ∃ E, HoldsE S s'.W E := by
  unfold step at h
  simp only [Option.bind_eq_some_iff, Option.map_eq_some_iff] at h
  obtain ⟨Wh, e1, W', e2, rfl⟩ := h
  obtain ⟨E, hE⟩ := hE
  obtain ⟨E', hE', -⟩ := bound_any hS _ _ e2
  refine ⟨?_, E', hE'⟩
  obtain ⟨Gh, hGh⟩ := exists_shows hS (repair S (fixup S (advance S m.pre ((1/2) * s.dt) s.W s.W (flagged m.half s.W))))
  have hh := bound_holds hS hp.noOutflow _ _ Gh hGh e1
  obtain ⟨hc, hf⟩ := hq Wh e1
  have := pass_near hS q δ hx m.cor s.dt s.W Wh (flagged s.W Wh) W' E (ext S Gh) hE hh hc hf e2
  have fp := flux_periodic hS hp Gh q
  have p1 : ∀ d : Dim, ∀ x : ℕ, x ∈ range d.tot.toNat → (0 : ℤ) ≤ x ∧ (x : ℤ) < d.tot := by
    intro d x hx; rw [mem_range] at hx; omega
  have zs : (∑ I ∈ range S.cfg.d1.tot.toNat, ∑ J ∈ range S.cfg.d2.tot.toNat, ∑ Kk ∈ range S.cfg.d3.tot.toNat,
      S.sol.source I J Kk s.dt (ext S Gh I J Kk) q) = 0 :=
    sum_eq_zero fun I _ => sum_eq_zero fun J _ => sum_eq_zero fun Kk _ => hsrc _ _ _ _ _
  have z1 : (∑ J ∈ range S.cfg.d2.tot.toNat, ∑ Kk ∈ range S.cfg.d3.tot.toNat,
      ((rankFlux S.sol S.whole zeroOrigin S.sol.noIn (ext S Gh) blank).1 S.cfg.d1.tot J Kk q -
        (rankFlux S.sol S.whole zeroOrigin S.sol.noIn (ext S Gh) blank).1 0 J Kk q)) = 0 :=
    sum_eq_zero fun J hJ => sum_eq_zero fun Kk hK =>
      sub_eq_zero.2 (fp.1 J Kk (p1 _ J hJ).1 (p1 _ J hJ).2 (p1 _ Kk hK).1 (p1 _ Kk hK).2)
  have z2 : (∑ I ∈ range S.cfg.d1.tot.toNat, ∑ Kk ∈ range S.cfg.d3.tot.toNat,
      ((rankFlux S.sol S.whole zeroOrigin S.sol.noIn (ext S Gh) blank).2.1 I S.cfg.d2.tot Kk q -
        (rankFlux S.sol S.whole zeroOrigin S.sol.noIn (ext S Gh) blank).2.1 I 0 Kk q)) = 0 :=
    sum_eq_zero fun I hI => sum_eq_zero fun Kk hK =>
      sub_eq_zero.2 (fp.2.1 I Kk (p1 _ I hI).1 (p1 _ I hI).2 (p1 _ Kk hK).1 (p1 _ Kk hK).2)
  have z3 : (∑ I ∈ range S.cfg.d1.tot.toNat, ∑ J ∈ range S.cfg.d2.tot.toNat,
      ((rankFlux S.sol S.whole zeroOrigin S.sol.noIn (ext S Gh) blank).2.2 I J S.cfg.d3.tot q -
        (rankFlux S.sol S.whole zeroOrigin S.sol.noIn (ext S Gh) blank).2.2 I J 0 q)) = 0 :=
    sum_eq_zero fun I hI => sum_eq_zero fun J hJ =>
      sub_eq_zero.2 (fp.2.2 I J (p1 _ I hI).1 (p1 _ I hI).2 (p1 _ J hJ).1 (p1 _ J hJ).2)
  rw [zs, z1, z2, z3] at this
  simpa using this

/-- **C219 (runs).** If the recovery is off by at most `δ` in a variable, its total on a periodic box is off by at most `δ` for each zone and each step: the error does not grow faster than the work done. -/
theorem C219_drift (S : Setup K) (hS : S.WF) (hp : PeriodicBox S) (q : Fin 8) (δ : K) (hx : NearRecovery S.sol q δ)
    (hsrc : ∀ I J Kk Dt v, S.sol.source I J Kk Dt v q = 0) (W0 : World (Cell K)) (dt t : K) (ms : List (Mem K)) (s : State K)
    (hq : QuietRun S W0 dt t ms) (hrun : run S W0 dt t ms = some s) : |conserved S s.W q - conserved S (fixup S W0) q| ≤ ms.length * zones S * δ := by
  have key : (∃ E, HoldsE S s.W E) ∧ |conserved S s.W q - conserved S (fixup S W0) q| ≤ ms.length * zones S * δ := by
    induction ms using List.reverseRecOn generalizing s with
    | nil =>
      unfold run at hrun
      simp only [Option.bind_eq_some_iff, List.foldlM_nil, Option.pure_def, Option.some.injEq] at hrun
      obtain ⟨W1, e1, rfl⟩ := hrun
      obtain ⟨E, hE, -⟩ := bound_any hS _ _ e1
      exact ⟨⟨E, hE⟩, by rw [conserved_congr hS _ _ (fun c1 c2 c3 i j k r a => bound_act hS _ _ e1 c1 c2 c3 i j k r a) q]; simp⟩
    | append_singleton ms m ih =>
      have hsplit : ∃ s1, run S W0 dt t ms = some s1 ∧ step S m s1 = some s := by
        unfold run at hrun ⊢
        simp only [Option.bind_eq_some_iff] at hrun ⊢
        obtain ⟨W1, e1, h⟩ := hrun
        rw [List.foldlM_append] at h
        simp only [Option.bind_eq_bind, Option.bind_eq_some_iff, List.foldlM_cons, List.foldlM_nil, Option.pure_def, Option.bind_some] at h
        obtain ⟨s1, h1, s2, h2, h3⟩ := h
        simp only [Option.some.injEq] at h3
        exact ⟨s1, ⟨W1, e1, h1⟩, h3 ▸ h2⟩
      obtain ⟨s1, h1, h2⟩ := hsplit
      obtain ⟨hE, e⟩ := ih s1 (fun pre m' post s0 hl hr => hq pre m' (post ++ [m]) s0 (by rw [hl]; simp) hr) h1
      obtain ⟨k1, k2⟩ := step_near hS hp q δ hx hsrc m s1 s hE (hq ms m [] s1 rfl h1) h2
      refine ⟨k2, ?_⟩
      have := abs_add_le (conserved S s.W q - conserved S s1.W q) (conserved S s1.W q - conserved S (fixup S W0) q)
      rw [sub_add_sub_cancel] at this
      rw [List.length_append, List.length_singleton]
      push_cast
      linarith
  exact key.2

/-- **C128 (periodic boxes).** On a periodic box, however divided among ranks, the total over all ranks of every conserved variable
without source is after any number of steps what it is in the (floored) initial state, to the last digit in exact arithmetic, with arbitrary
leftovers in memory and also if half-step states had to be repaired, as long as the full updates needed neither repair nor floors. -/
theorem C128_periodic_totals (S : Setup K) (hS : S.WF) (hp : PeriodicBox S) (q : Fin 8) (hx : ExactRecoveryOf S.sol q)
    (hsrc : ∀ I J Kk Dt v, S.sol.source I J Kk Dt v q = 0) (W0 : World (Cell K)) (dt t : K) (ms : List (Mem K)) (s : State K)
    (hq : QuietRun S W0 dt t ms) (hrun : run S W0 dt t ms = some s) : conserved S s.W q = conserved S (fixup S W0) q := by
  have := C219_drift S hS hp q 0 hx.near hsrc W0 dt t ms s hq hrun
  rw [mul_zero] at this
  exact sub_eq_zero.1 (abs_eq_zero.1 (le_antisymm this (abs_nonneg _)))

/-- **C128 (any boundaries).** With other boundaries and with sources, the total changes in a step by the sources at the half step and by what
passes the outer faces of the whole grid: the faces between ranks contribute nothing, however the grid is divided. -/
theorem C128_step_budget (S : Setup K) (hS : S.WF) (hout : NoUpperOutflow S) (q : Fin 8) (hx : ExactRecoveryOf S.sol q) (m : Mem K) (s s' : State K)
    (G : ℤ → ℤ → ℤ → Prim K) (hG : Holds S s.W G) (hq : QuietStep S m s) (h : step S m s = some s') :
    ∃ Gh : ℤ → ℤ → ℤ → Prim K,
      Shows S (repair S (fixup S (advance S m.pre ((1/2) * s.dt) s.W s.W (flagged m.half s.W)))) Gh ∧
      conserved S s'.W q = conserved S s.W q + s.dt * (∑ I ∈ range S.cfg.d1.tot.toNat, ∑ J ∈ range S.cfg.d2.tot.toNat, ∑ Kk ∈ range S.cfg.d3.tot.toNat,
        S.sol.source I J Kk s.dt (ext S Gh I J Kk) q)
      - s.dt * ((∑ J ∈ range S.cfg.d2.tot.toNat, ∑ Kk ∈ range S.cfg.d3.tot.toNat,
          ((rankFlux S.sol S.whole zeroOrigin S.sol.noIn (ext S Gh) blank).1 S.cfg.d1.tot J Kk q - (rankFlux S.sol S.whole zeroOrigin S.sol.noIn (ext S Gh) blank).1 0 J Kk q)) / S.sol.dx 0
        + (∑ I ∈ range S.cfg.d1.tot.toNat, ∑ Kk ∈ range S.cfg.d3.tot.toNat,
          ((rankFlux S.sol S.whole zeroOrigin S.sol.noIn (ext S Gh) blank).2.1 I S.cfg.d2.tot Kk q - (rankFlux S.sol S.whole zeroOrigin S.sol.noIn (ext S Gh) blank).2.1 I 0 Kk q)) / S.sol.dx 1
        + (∑ I ∈ range S.cfg.d1.tot.toNat, ∑ J ∈ range S.cfg.d2.tot.toNat,
          ((rankFlux S.sol S.whole zeroOrigin S.sol.noIn (ext S Gh) blank).2.2 I J S.cfg.d3.tot q - (rankFlux S.sol S.whole zeroOrigin S.sol.noIn (ext S Gh) blank).2.2 I J 0 q)) / S.sol.dx 2) := by
  unfold step at h
  simp only [Option.bind_eq_some_iff, Option.map_eq_some_iff] at h
  obtain ⟨Wh, e1, W', e2, rfl⟩ := h
  obtain ⟨Gh, hGh⟩ := exists_shows hS (repair S (fixup S (advance S m.pre ((1/2) * s.dt) s.W s.W (flagged m.half s.W))))
  obtain ⟨hc, hf⟩ := hq Wh e1
  exact ⟨Gh, hGh, pass_budget hS q hx m.cor s.dt s.W Wh (flagged s.W Wh) W' _ (ext S Gh) hG (bound_holds hS hout _ _ Gh hGh e1) hc hf e2⟩

/-! ## A case -/

/-- Two ranks on a periodic box; recovery never fails. -/
def carousel : Setup ℚ :=
  ⟨⟨⟨3, 2, .periodic, .periodic⟩, ⟨3, 1, .periodic, .periodic⟩, ⟨1, 1, .periodic, .periodic⟩, fun _ _ => 1, fun _ _ _ => ⟨fun _ => 0, 0⟩,
    fun _ _ _ => ⟨fun _ => 0, 0⟩⟩, { swirl with flag := fun _ _ _ _ _ => 0 }⟩

theorem carousel_wf : carousel.WF := by
  refine ⟨⟨by simp [carousel], by simp [carousel], by simp [carousel], by simp [carousel, NG]⟩,
    ⟨by simp [carousel], by simp [carousel], by simp [carousel], by simp [carousel, NG]⟩,
    ⟨by simp [carousel], by simp [carousel], by simp [carousel], by simp [carousel, Dim.periodic]⟩⟩

theorem carousel_box : PeriodicBox carousel :=
  ⟨⟨rfl, rfl⟩, ⟨rfl, rfl⟩, ⟨rfl, rfl⟩, rfl, fun _ _ _ _ _ => rfl, fun _ _ _ _ _ => rfl, fun _ _ _ _ _ => rfl⟩

theorem carousel_quiet (m : Mem ℚ) (s : State ℚ) : QuietStep carousel m s := by
  intro Wh _
  refine ⟨?_, ?_⟩
  · intro c1 c2 c3 i j k _ ha
    unfold advance
    rw [if_pos (show _ ∧ _ ∧ _ from ha)]
    rfl
  · intro c1 c2 c3 i j k _ ha
    unfold fixup
    rw [if_pos (show _ ∧ _ ∧ _ from ha)]
    rfl

/-- Every run of it keeps all eight totals. -/
example (ms : List (Mem ℚ)) (s : State ℚ) (h : run carousel wavy (1/2) 0 ms = some s) (q : Fin 8) :
    conserved carousel s.W q = conserved carousel (fixup carousel wavy) q :=
  C128_periodic_totals carousel carousel_wf carousel_box q (fun _ _ _ _ _ _ => rfl) (fun _ _ _ _ _ => rfl) wavy _ _ ms s
    (fun _ m _ s _ _ => carousel_quiet m s) h

/-- The same box with a recovery that is off by one thousandth in the energy: the total drifts by at most one thousandth per zone and step. -/
def sloppy : Setup ℚ := { carousel with sol := { carousel.sol with inv := fun I J Kk U v => Function.update (carousel.sol.inv I J Kk U v) 1 (carousel.sol.inv I J Kk U v 1 + 1 / 1000) } }

example (ms : List (Mem ℚ)) (s : State ℚ) (h : run sloppy wavy (1/2) 0 ms = some s) : |conserved sloppy s.W 1 - conserved sloppy (fixup sloppy wavy) 1| ≤ ms.length * zones sloppy * (1 / 1000) :=
  C219_drift sloppy carousel_wf ⟨⟨rfl, rfl⟩, ⟨rfl, rfl⟩, ⟨rfl, rfl⟩, rfl, fun _ _ _ _ _ => rfl, fun _ _ _ _ _ => rfl, fun _ _ _ _ _ => rfl⟩ 1 _
    (fun I J Kk U v _ => by
      show |Function.update U 1 (U 1 + 1 / 1000) 1 - U 1| ≤ _
      rw [Function.update_self, add_sub_cancel_left, abs_of_pos (by norm_num)])
    (fun _ _ _ _ _ => rfl) wavy _ _ ms s
    (fun _ m _ s _ _ => by
      intro Wh _
      refine ⟨?_, ?_⟩
      · intro c1 c2 c3 i j k _ ha
        unfold advance
        rw [if_pos (show _ ∧ _ ∧ _ from ha)]
        rfl
      · intro c1 c2 c3 i j k _ ha
        unfold fixup
        rw [if_pos (show _ ∧ _ ∧ _ from ha)]
        rfl) h

/-- The run completes and zones do change. -/
example : (run carousel wavy (1/2) 0 [mem0]).isSome ∧
    ((run carousel wavy (1/2) 0 [mem0]).map fun s => decide ((s.W 1 0 0 5 4 3).prim 0 = (wavy 1 0 0 5 4 3).prim 0)) = some false := by
  refine ⟨?_, ?_⟩ <;> decide +kernel

end Nubhlight.FluidStep
