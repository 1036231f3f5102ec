import Verif.Model.Bounds
import Verif.Model.Inflow
import Verif.Model.Conserve
import Verif.Model.FixupUtoprim
import Mathlib.Data.List.Basic

set_option autoImplicit false

/-!
# One step of the fluid on all ranks

core/step.c:23-175 for builds without radiation and without electrons: predictor and corrector, each with its fluxes
(core/step.c:283-354), `fix_flux` (core/bounds.c:292-339), constrained transport (core/step.c:356-394), update and recovery
(core/step.c:207-224), floors (core/fixup.c:15-20), repair of failed zones (core/fixup.c:264-359) and boundary pass, and the choice of the next step.
Put together from `Bounds`, `Inflow`, `FluxCT`, `Conserve` and `FixupUtoprim`.

Zones of a rank are counted from its first active one, except in `World` (storage index). The physics of a zone or a face
(reconstruction with the Riemann solver, source, conserved variables, recovery, floors, inflow check) enters as functions of the
global index of the zone or face (the geometry and hence everything else follows from it, core/coord.c:40-70) and of what it is
given. That a flux depends on six zones is C74. Arrays that persist between calls (`F1`, `F2`, `F3`, the static work arrays of
`flux_ct`, ghost zones of the half-step array) start each call with arbitrary contents.
-/

namespace Nubhlight.FluidStep

open Bounds Inflow

variable {K : Type*} [Field K] [LinearOrder K] [IsStrictOrderedRing K]

/-- Variables of a zone. -/
abbrev Prim (K : Type*) := Fin 8 → K

/-- The physics by global index, see above. `next` gives the next step from the three largest speeds, the present step and the new
time (core/step.c:349-353, 148-174; C08, C09); `noIn` are the settings `X1L_INFLOW == 0` and so on; `mks` is `METRIC == MKS`. -/
structure Solver (K : Type*) where
  num : Fin 3 → ℤ → ℤ → ℤ → (Fin 6 → Prim K) → Prim K
  speed : Fin 3 → ℤ → ℤ → ℤ → (Fin 6 → Prim K) → K
  source : ℤ → ℤ → ℤ → K → Prim K → Prim K
  cons : ℤ → ℤ → ℤ → Prim K → Prim K
  inv : ℤ → ℤ → ℤ → Prim K → Prim K → Prim K
  flag : ℤ → ℤ → ℤ → Prim K → Prim K → ℤ
  fix : ℤ → ℤ → ℤ → Prim K → Prim K
  inflow : ℤ → ℤ → Bool → Prim K → Prim K
  dx : Fin 3 → K
  next : K → K → K → K → K → K
  mks : Bool
  noIn : Guards

/-- A build: grid with its division and boundaries, and physics. -/
structure Setup (K : Type*) where
  cfg : Cfg K
  sol : Solver K

/-- Three flux arrays of a rank. -/
abbrev FArr3 (K : Type*) := FArr K × FArr K × FArr K

/-- What the arrays of a rank hold when `advance` is entered. -/
structure Stale (K : Type*) where
  F : FArr3 K
  emf : FluxCT.Emf K

/-- Global index of the first active zone of a rank. -/
structure Origin where
  o1 : ℤ
  o2 : ℤ
  o3 : ℤ

/-- Fluxes of `fluxcalc`, core/step.c:295-341: faces `0..N` along the direction, zones `-1..N` across it. -/
def rawFlux (sol : Solver K) (n : FluxCT.Dims) (o : Origin) (P : ℤ → ℤ → ℤ → Prim K) (old : FArr3 K) : FArr3 K :=
  (fun i j k => if FluxCT.inBox 0 n.n1 (-1) n.n2 (-1) n.n3 i j k then
      sol.num 0 (o.o1 + i) (o.o2 + j) (o.o3 + k) fun s => P (i - 3 + (s : ℤ)) j k else old.1 i j k,
   fun i j k => if FluxCT.inBox (-1) n.n1 0 n.n2 (-1) n.n3 i j k then
      sol.num 1 (o.o1 + i) (o.o2 + j) (o.o3 + k) fun s => P i (j - 3 + (s : ℤ)) k else old.2.1 i j k,
   fun i j k => if FluxCT.inBox (-1) n.n1 (-1) n.n2 0 n.n3 i j k then
      sol.num 2 (o.o1 + i) (o.o2 + j) (o.o3 + k) fun s => P i j (k - 3 + (s : ℤ)) else old.2.2 i j k)

/-- Flux arrays with the magnetic components replaced. -/
def withB (F : FArr3 K) (c : FluxCT.Fluxes K) : FArr3 K :=
  let put (A : FArr K) (b : FluxCT.BArr K) : FArr K := fun i j k q =>
    if q = 5 then b.b1 i j k else if q = 6 then b.b2 i j k else if q = 7 then b.b3 i j k else A i j k q
  (put F.1 c.f1, put F.2.1 c.f2, put F.2.2 c.f3)

/-- Fluxes of a rank as the update uses them, core/step.c:186-192. -/
def rankFlux (sol : Solver K) (n : FluxCT.Dims) (o : Origin) (g : Guards) (P : ℤ → ℤ → ℤ → Prim K) (st : Stale K) : FArr3 K :=
  let F := rawFlux sol n o P st.F
  let F := if sol.mks then fixFlux n g F else F
  withB F (FluxCT.fluxCT n (magnetic F) st.emf)

/-- Conserved variables after the update, core/step.c:210-219. -/
def newU (sol : Solver K) (o : Origin) (Dt : K) (Pi Pb : ℤ → ℤ → ℤ → Prim K) (F : FArr3 K) (i j k : ℤ) : Prim K := fun q =>
  Conserve.updZone Dt (sol.dx 0) (sol.dx 1) (sol.dx 2)
    (fun i j k => sol.cons (o.o1 + i) (o.o2 + j) (o.o3 + k) (Pi i j k) q)
    (fun i j k => F.1 i j k q) (fun i j k => F.2.1 i j k q) (fun i j k => F.2.2 i j k q)
    (fun i j k => sol.source (o.o1 + i) (o.o2 + j) (o.o3 + k) Dt (Pb i j k) q) i j k

/-- `advance` of a rank in an active zone, core/step.c:182-224: recovered variables and flag. The first guess is the value of `Pi`
(core/step.c:183; in the corrector both are the same array). -/
def rankAdvance (sol : Solver K) (n : FluxCT.Dims) (o : Origin) (g : Guards) (Dt : K) (Pi Pb : ℤ → ℤ → ℤ → Prim K) (st : Stale K)
    (i j k : ℤ) : Cell K :=
  let U := newU sol o Dt Pi Pb (rankFlux sol n o g Pb st) i j k
  ⟨sol.inv (o.o1 + i) (o.o2 + j) (o.o3 + k) U (Pi i j k), sol.flag (o.o1 + i) (o.o2 + j) (o.o3 + k) U (Pi i j k)⟩

/-- Zones of the rank in each direction. -/
def Setup.dims (S : Setup K) : FluxCT.Dims := ⟨S.cfg.d1.N, S.cfg.d2.N, S.cfg.d3.N⟩

/-- `global_start`. -/
def Setup.origin (S : Setup K) (c1 c2 c3 : ℤ) : Origin := ⟨c1 * S.cfg.d1.N, c2 * S.cfg.d2.N, c3 * S.cfg.d3.N⟩

/-- The tests of core/bounds.c:293, 304, 315, 328 on a rank. -/
def Setup.guards (S : Setup K) (c1 c2 : ℤ) : Guards :=
  ⟨S.sol.noIn.x1l && decide (c1 = 0), S.sol.noIn.x1r && decide (c1 = S.cfg.d1.C - 1),
   S.sol.noIn.x2l && decide (c2 = 0), S.sol.noIn.x2r && decide (c2 = S.cfg.d2.C - 1)⟩

/-- Variables of a rank, counted from its first active zone. -/
def local_ (W : World (Cell K)) (c1 c2 c3 : ℤ) : ℤ → ℤ → ℤ → Prim K := fun i j k => (W c1 c2 c3 (i + NG) (j + NG) (k + NG)).prim

/-- `advance` on all ranks, core/step.c:177-228: `Wf` are the previous contents of the target array. -/
def advance (S : Setup K) (st : ℤ → ℤ → ℤ → Stale K) (Dt : K) (Wi Wb Wf : World (Cell K)) : World (Cell K) := fun c1 c2 c3 i j k =>
  if act S.cfg.d1 i ∧ act S.cfg.d2 j ∧ act S.cfg.d3 k then
    rankAdvance S.sol S.dims (S.origin c1 c2 c3) (S.guards c1 c2) Dt (local_ Wi c1 c2 c3) (local_ Wb c1 c2 c3) (st c1 c2 c3)
      (i - NG) (j - NG) (k - NG)
  else Wf c1 c2 c3 i j k

/-- `fixup`, core/fixup.c:15-20. -/
def fixup (S : Setup K) (W : World (Cell K)) : World (Cell K) := fun c1 c2 c3 i j k =>
  if act S.cfg.d1 i ∧ act S.cfg.d2 j ∧ act S.cfg.d3 k then
    ⟨S.sol.fix (glob S.cfg.d1 c1 i) (glob S.cfg.d2 c2 j) (glob S.cfg.d3 c3 k) (W c1 c2 c3 i j k).prim, (W c1 c2 c3 i j k).pflag⟩
  else W c1 c2 c3 i j k

/-- `fixup_utoprim` on all ranks, core/fixup.c:264-359, from `FixupUtoprim`: the five fluid variables of failed zones are
replaced, the flags are turned round, and `fixup` runs again if nothing could be used. Floors in a repaired zone see the field of
that zone. The loop never needs more passes than allowed here (C17). -/
def repair (S : Setup K) (W : World (Cell K)) : World (Cell K) :=
  let n : FixupUtoprim.Sizes := ⟨S.cfg.d1.N.toNat, S.cfg.d2.N.toNat, S.cfg.d3.N.toNat⟩
  let out (c1 c2 c3 : ℤ) := FixupUtoprim.fixupUtoprim n
    (fun z v ip => S.sol.fix (glob S.cfg.d1 c1 z.1) (glob S.cfg.d2 c2 z.2.1) (glob S.cfg.d3 c3 z.2.2)
      (fun q => if h : q.val < 5 then v ⟨q.val, h⟩ else (W c1 c2 c3 z.1 z.2.1 z.2.2).prim q) (Fin.castLE (by norm_num) ip))
    (n.N1 * n.N2 * n.N3 + 2) (fun z ip => (W c1 c2 c3 z.1 z.2.1 z.2.2).prim (Fin.castLE (by norm_num) ip))
    (fun z => (W c1 c2 c3 z.1 z.2.1 z.2.2).pflag)
  fun c1 c2 c3 i j k =>
    match out c1 c2 c3 with
    | none => W c1 c2 c3 i j k
    | some (g, again) =>
      let W' : World (Cell K) := fun c1 c2 c3 i j k =>
        ⟨fun q => if h : q.val < 5 then g.P (i, j, k) ⟨q.val, h⟩ else (W c1 c2 c3 i j k).prim q, if g.good (i, j, k) then 1 else 0⟩
      if again then fixup S W' c1 c2 c3 i j k else W' c1 c2 c3 i j k

/-- The inflow checks at the end of `bound_prim`, core/bounds.c:224-244. -/
def inflowPass (S : Setup K) (W : World (Cell K)) : World (Cell K) := fun c1 c2 c3 i j k =>
  let v := W c1 c2 c3 i j k
  if S.sol.mks ∧ S.sol.noIn.x1l ∧ c1 = 0 ∧ 0 ≤ i ∧ i < NG then
    ⟨S.sol.inflow (glob S.cfg.d1 c1 i) (glob S.cfg.d2 c2 j) false v.prim, v.pflag⟩
  else if S.sol.mks ∧ S.sol.noIn.x1r ∧ c1 = S.cfg.d1.C - 1 ∧ S.cfg.d1.N + NG ≤ i ∧ i < S.cfg.d1.N + 2 * NG then
    ⟨S.sol.inflow (glob S.cfg.d1 c1 i) (glob S.cfg.d2 c2 j) true v.prim, v.pflag⟩
  else v

/-- `bound_prim` with the inflow checks, core/bounds.c:13-247. -/
def bound (S : Setup K) (W : World (Cell K)) : Option (World (Cell K)) := (boundPrim S.cfg W).map (inflowPass S)

/-- Largest of a list and zero: `cmax = (cij > cmax ? cij : cmax)` from 0, core/step.c:288, 306. -/
def maxL (l : List K) : K := l.foldl max 0

/-- The integers from `a` to `b`. -/
def ints (a b : ℤ) : List ℤ := (List.range (b - a + 1).toNat).map fun x : ℕ => a + (x : ℤ)

/-- Speeds a rank sees along one direction, core/step.c:295-341. -/
def rankSpeeds (sol : Solver K) (n : FluxCT.Dims) (o : Origin) (P : ℤ → ℤ → ℤ → Prim K) : Fin 3 → List K
  | 0 => (ints 0 n.n1).flatMap fun i => (ints (-1) n.n2).flatMap fun j => (ints (-1) n.n3).map fun k =>
      sol.speed 0 (o.o1 + i) (o.o2 + j) (o.o3 + k) fun s => P (i - 3 + (s : ℤ)) j k
  | 1 => (ints (-1) n.n1).flatMap fun i => (ints 0 n.n2).flatMap fun j => (ints (-1) n.n3).map fun k =>
      sol.speed 1 (o.o1 + i) (o.o2 + j) (o.o3 + k) fun s => P i (j - 3 + (s : ℤ)) k
  | 2 => (ints (-1) n.n1).flatMap fun i => (ints (-1) n.n2).flatMap fun j => (ints 0 n.n3).map fun k =>
      sol.speed 2 (o.o1 + i) (o.o2 + j) (o.o3 + k) fun s => P i j (k - 3 + (s : ℤ))

/-- `cmax` after `mpi_max`, core/step.c:344-347. -/
def cmax (S : Setup K) (W : World (Cell K)) (d : Fin 3) : K :=
  maxL ((ints 0 (S.cfg.d1.C - 1)).flatMap fun c1 => (ints 0 (S.cfg.d2.C - 1)).flatMap fun c2 => (ints 0 (S.cfg.d3.C - 1)).map fun c3 =>
    maxL (rankSpeeds S.sol S.dims (S.origin c1 c2 c3) (local_ W c1 c2 c3) d))

/-- What is left in memory before a step: arrays of predictor and corrector, and the half-step array. -/
structure Mem (K : Type*) where
  pre : ℤ → ℤ → ℤ → Stale K
  cor : ℤ → ℤ → ℤ → Stale K
  half : World (Cell K)

/-- Variables of all ranks, step and time. -/
structure State (K : Type*) where
  W : World (Cell K)
  dt : K
  t : K

/-- Variables of one array with the flags, of which there is one array for all (core/defs.h:17). -/
def flagged (V Fl : World (Cell K)) : World (Cell K) := fun c1 c2 c3 i j k => ⟨(V c1 c2 c3 i j k).prim, (Fl c1 c2 c3 i j k).pflag⟩

/-- One step, core/step.c:48-62, 90-104, 131-174. -/
def step (S : Setup K) (m : Mem K) (s : State K) : Option (State K) :=
  (bound S (repair S (fixup S (advance S m.pre ((1/2) * s.dt) s.W s.W (flagged m.half s.W))))).bind fun Wh =>
  (bound S (repair S (fixup S (advance S m.cor s.dt s.W Wh (flagged s.W Wh))))).map fun W' =>
    ⟨W', S.sol.next (cmax S Wh 0) (cmax S Wh 1) (cmax S Wh 2) s.dt (s.t + s.dt), s.t + s.dt⟩

/-- A run: floors and boundary pass after the initial condition (core/main.c:332-333), then any number of steps. -/
def run (S : Setup K) (W0 : World (Cell K)) (dt t : K) (ms : List (Mem K)) : Option (State K) :=
  (bound S (fixup S W0)).bind fun W => ms.foldlM (fun s m => step S m s) ⟨W, dt, t⟩

end Nubhlight.FluidStep
