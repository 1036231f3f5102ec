import Verif.Model.Messages
import Verif.Model.FluidStep
import Mathlib.Data.List.FinRange

set_option autoImplicit false

/-!
# A fluid run as programs of ranks

The programs of `Messages` for core/main.c:332-333 and core/step.c:26-175 with the computations of `FluidStep` (fluid only). Every rank has its own memory:
the arrays `P`, `Ph`, one array of flags, the flux arrays, the three largest speeds, step and time. What `FluidStep` does on all ranks at once is
here done by each rank for itself, between messages and reductions.
-/

namespace Nubhlight.Messages

open Bounds FluidStep

variable {K : Type*} [Field K] [LinearOrder K] [IsStrictOrderedRing K]

/-- Memory of a rank: `P`, `Ph`, `pflag` (core/defs.h), `F1`, `F2`, `F3`, `cmax1..3` (core/step.c:285), `dt`, `t`. Zones by storage index, flux arrays counted
from the first active zone. -/
structure RankMem (K : Type*) where
  P : ℤ → ℤ → ℤ → Prim K
  H : ℤ → ℤ → ℤ → Prim K
  fl : ℤ → ℤ → ℤ → ℤ
  F : FArr3 K
  cm : Fin 3 → K
  dt : K
  t : K

/-- `P` and `Ph` as arguments of `bound_prim` and the fix-ups; the flags belong to both. -/
def arrays : Arrays (RankMem K) K where
  getH x := fun i j k => ⟨x.H i j k, x.fl i j k⟩
  setH x Z := { x with H := fun i j k => (Z i j k).prim, fl := fun i j k => (Z i j k).pflag }
  getP x := fun i j k => ⟨x.P i j k, x.fl i j k⟩
  setP x Z := { x with P := fun i j k => (Z i j k).prim, fl := fun i j k => (Z i j k).pflag }

/-- An operation of `FluidStep` on all ranks that a rank does for itself. -/
def onRank {d1 d2 d3 : Dim} (f : World (Cell K) → World (Cell K)) (r : Ranks d1 d2 d3) (Z : Zones K) : Zones K :=
  f (fun _ _ _ => Z) r.1 r.2.1 r.2.2

/-- Outcome of the loop of `fixup_utoprim` on a rank, as in `FluidStep.repair`. -/
def repairOut (S : Setup K) (W : World (Cell K)) (c1 c2 c3 : ℤ) : Option (FixupUtoprim.Grid K × Bool) :=
  let n : FixupUtoprim.Sizes := ⟨S.cfg.d1.N.toNat, S.cfg.d2.N.toNat, S.cfg.d3.N.toNat⟩
  FixupUtoprim.fixupUtoprim n
    (fun z v ip => S.sol.fix (glob S.cfg.d1 c1 z.1) (glob S.cfg.d2 c2 z.2.1) (glob S.cfg.d3 c3 z.2.2)
      (fun q => if h : q.val < 5 then v ⟨q.val, h⟩ else (W c1 c2 c3 z.1 z.2.1 z.2.2).prim q) (Fin.castLE (by norm_num) ip))
    (n.N1 * n.N2 * n.N3 + 2) (fun z ip => (W c1 c2 c3 z.1 z.2.1 z.2.2).prim (Fin.castLE (by norm_num) ip))
    (fun z => (W c1 c2 c3 z.1 z.2.1 z.2.2).pflag)

/-- The test of core/fixup.c:355. -/
def gives (S : Setup K) (W : World (Cell K)) (c1 c2 c3 : ℤ) : Bool := ((repairOut S W c1 c2 c3).map Prod.snd).getD false

/-- `fixup_utoprim` without the last call of `fixup`, core/fixup.c:264-353. -/
def repairLoop (S : Setup K) (W : World (Cell K)) : World (Cell K) := fun c1 c2 c3 i j k =>
  match repairOut S W c1 c2 c3 with
  | none => W c1 c2 c3 i j k
  | some (g, _) => ⟨fun q => if h : q.val < 5 then g.P (i, j, k) ⟨q.val, h⟩ else (W c1 c2 c3 i j k).prim q, if g.good (i, j, k) then 1 else 0⟩

/-- An array counted from the first active zone. -/
def fromFirst (Z : ℤ → ℤ → ℤ → Prim K) : ℤ → ℤ → ℤ → Prim K := fun i j k => Z (i + NG) (j + NG) (k + NG)

section rank
variable (S : Setup K)

/-- Ranks of a build. -/
abbrev RanksOf := Ranks S.cfg.d1 S.cfg.d2 S.cfg.d3

/-- `global_start` of a rank. -/
def startOf (r : RanksOf S) : Origin := S.origin r.1 r.2.1 r.2.2

/-- All ranks in some order. -/
def allRanks (d1 d2 d3 : Dim) : List (Ranks d1 d2 d3) :=
  (List.finRange d1.C.toNat).flatMap fun a => (List.finRange d2.C.toNat).flatMap fun b => (List.finRange d3.C.toNat).map fun c => (a, b, c)

/-- `fluxcalc` up to the reductions, core/step.c:283-342. -/
def fluxPart (Pb : RankMem K → ℤ → ℤ → ℤ → Prim K) (r : RanksOf S) (x : RankMem K) : RankMem K :=
  { x with F := rawFlux S.sol S.dims (startOf S r) (fromFirst (Pb x)) x.F,
           cm := fun d => maxL (rankSpeeds S.sol S.dims (startOf S r) (fromFirst (Pb x)) d) }

/-- `cmax = mpi_max(cmax)`, core/step.c:345-347. -/
def maxSpeed (d : Fin 3) (r : RanksOf S) (V : RanksOf S → RankMem K) : RankMem K :=
  { V r with cm := Function.update (V r).cm d (maxL ((allRanks S.cfg.d1 S.cfg.d2 S.cfg.d3).map fun o => (V o).cm d)) }

/-- `fix_flux` and `flux_ct`, core/step.c:188-192; `e` is what the work arrays of the latter hold. -/
def transport (e : RanksOf S → FluxCT.Emf K) (r : RanksOf S) (x : RankMem K) : RankMem K :=
  let F := if S.sol.mks then Inflow.fixFlux S.dims (S.guards r.1 r.2.1) x.F else x.F
  { x with F := withB F (FluxCT.fluxCT S.dims (Inflow.magnetic F) (e r)) }

/-- New contents of an active zone, core/step.c:209-221; `G` is what the target array holds there. -/
def zoneNew (r : RanksOf S) (Dt : K) (Pi Pb : ℤ → ℤ → ℤ → Prim K) (F : FArr3 K) (G : Prim K) (i j k : ℤ) : Cell K :=
  let o := startOf S r
  let U := newU S.sol o Dt (fromFirst Pi) (fromFirst Pb) F (i - NG) (j - NG) (k - NG)
  ⟨S.sol.inv (o.o1 + (i - NG)) (o.o2 + (j - NG)) (o.o3 + (k - NG)) U G, S.sol.flag (o.o1 + (i - NG)) (o.o2 + (j - NG)) (o.o3 + (k - NG)) U G⟩

/-- Active zones of a rank. -/
def isAct (i j k : ℤ) : Prop := act S.cfg.d1 i ∧ act S.cfg.d2 j ∧ act S.cfg.d3 k

instance (i j k : ℤ) : Decidable (isAct S i j k) := by unfold isAct; infer_instance

/-- Predictor, core/step.c:49-54: `advance(P, P, 0.5 * dt, Ph, 0)`, `fixup`, `fixup_utoprim`. -/
def predictor (e : RanksOf S → FluxCT.Emf K) (again : RanksOf S → Bool) : Stage (RanksOf S) (RankMem K) where
  copy _ x := { x with H := fun i j k => if isAct S i j k then x.P i j k else x.H i j k }
  flux := fluxPart S fun x => x.P
  red := maxSpeed S
  ct := transport S e
  diag _ x := x
  update r x :=
    let n i j k := zoneNew S r ((1/2) * x.dt) x.P x.P x.F (x.H i j k) i j k
    { x with H := fun i j k => if isAct S i j k then (n i j k).prim else x.H i j k,
             fl := fun i j k => if isAct S i j k then (n i j k).pflag else x.fl i j k }
  floors r x := arrays.setH x (onRank (fixup S) r (arrays.getH x))
  repair r x := arrays.setH x (onRank (repairLoop S) r (arrays.getH x))
  again := again

/-- Corrector, core/step.c:91-96: `advance(P, Ph, dt, P, 1)`, `fixup`, `fixup_utoprim`. The copy of an array to itself is left out. -/
def corrector (e : RanksOf S → FluxCT.Emf K) (again : RanksOf S → Bool) : Stage (RanksOf S) (RankMem K) where
  copy _ x := x
  flux := fluxPart S fun x => x.H
  red := maxSpeed S
  ct := transport S e
  diag _ x := x
  update r x :=
    let n i j k := zoneNew S r x.dt x.P x.H x.F (x.P i j k) i j k
    { x with P := fun i j k => if isAct S i j k then (n i j k).prim else x.P i j k,
             fl := fun i j k => if isAct S i j k then (n i j k).pflag else x.fl i j k }
  floors r x := arrays.setP x (onRank (fixup S) r (arrays.getP x))
  repair r x := arrays.setP x (onRank (repairLoop S) r (arrays.getP x))
  again := again

/-- Contents of work arrays and outcomes of the two repairs in a step. -/
structure StepData where
  e1 : RanksOf S → FluxCT.Emf K
  e2 : RanksOf S → FluxCT.Emf K
  again1 : Bool
  again2 : Bool

/-- A step, core/step.c:26-175. The next step is found by each rank from the reduced speeds and the present step; `mpi_min` (core/step.c:157) takes the least
of all ranks. (The comparison with the final time is after `mpi_min` in the code and part of `next` here.) -/
def fluidStep (D : StepData S) : StepWork (RanksOf S) (RankMem K) where
  save _ x := x
  one := predictor S D.e1 fun _ => D.again1
  two := corrector S D.e2 fun _ => D.again2
  rest _ x := { x with dt := S.sol.next (x.cm 0) (x.cm 1) (x.cm 2) x.dt (x.t + x.dt), t := x.t + x.dt }
  least r V := { V r with dt := ((allRanks S.cfg.d1 S.cfg.d2 S.cfg.d3).map fun o => (V o).dt).foldl min (V r).dt }
  last _ x := x

/-- A run: core/main.c:332-333, then steps. -/
def fluidRun (fill : Fin 3 → Bool → ℤ → ℤ → (ℤ → Cell K) → ℤ → Cell K) (Ds : List (StepData S)) : Prog (RanksOf S) (RankMem K) (Zones K) := fun r =>
  fixupProg (fun r x => arrays.setP x (onRank (fixup S) r (arrays.getP x))) r
    ++ (boundProg S.cfg.d1 S.cfg.d2 S.cfg.d3 fill (onRank (inflowPass S)) r).map (lift arrays.getP arrays.setP r)
    ++ runProg S.cfg.d1 S.cfg.d2 S.cfg.d3 fill (onRank (inflowPass S)) arrays (Ds.map (fluidStep S)) r

end rank

end Nubhlight.Messages
