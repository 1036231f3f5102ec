import Mathlib.Algebra.Field.Basic

set_option autoImplicit false

/-!
# Model of the fluid boundary update on all ranks

core/bounds.c:13-222 (`bound_prim`, without the radial inflow check, which is in `Verif.Model.Inflow`), the
ghost-zone exchange core/mpi.c:216-274 and the neighbour table core/mpi.c:39-72.

A zone holds its basic primitives and its recovery flag; electron and passive scalars behave like density and are
left out. All ranks are modelled together: `W c1 c2 c3 i j k` is zone `(i,j,k)` (storage index) of the rank with
Cartesian coordinates `(c1,c2,c3)`. Every exchange is a message passing step in which all ranks take part; sends
read the values from before the step. The tests `global_start[d] == 0`, `global_stop[d] == NdTOT` are modelled as
"first rank", "last rank" in the direction (equal to them when every rank owns at least one zone, see C55).
Each loop over a face writes ghost zones only and reads along the normal direction, so it is written as an operation
on each line of zones in that direction.
-/

namespace Nubhlight.Bounds

/-- Boundary condition codes, core/decs.h:241-247. -/
inductive BC | outflow | periodic | polar | prob | escape | camera | equilib
  deriving DecidableEq

/-- `NG`, core/decs.h. -/
def NG : ℤ := 3

/-- One direction of the grid: zones per rank (`N1 = N1TOT/N1CPU`), ranks (`N1CPU`), conditions on both sides. -/
structure Dim where
  N : ℤ
  C : ℤ
  left : BC
  right : BC

/-- `periodic[d]`, core/mpi.c:39-42. -/
def Dim.periodic (d : Dim) : Bool := d.left = .periodic ∧ d.right = .periodic

/-- One zone: primitives (core/decs.h order) and `pflag`. -/
structure Cell (K : Type*) where
  prim : Fin 8 → K
  pflag : ℤ

/-- All zones of all ranks. -/
abbrev World (V : Type*) := ℤ → ℤ → ℤ → ℤ → ℤ → ℤ → V

section line
variable {V : Type*}

/-- Left neighbour in one direction, core/mpi.c:54-72; `none` is `MPI_PROC_NULL`. -/
def Dim.leftOf (d : Dim) (c : ℤ) : Option ℤ :=
  if c - 1 < 0 then (if d.periodic then some (d.C - 1) else none) else some (c - 1)

/-- Right neighbour in one direction, core/mpi.c:54-72. -/
def Dim.rightOf (d : Dim) (c : ℤ) : Option ℤ :=
  if c + 1 ≥ d.C then (if d.periodic then some 0 else none) else some (c + 1)

/-- Loop over the lower ghost zones on the first rank. -/
def faceL (fill : (ℤ → V) → ℤ → V) (a : ℤ → ℤ → V) : ℤ → ℤ → V := fun c i =>
  if c = 0 ∧ 0 ≤ i ∧ i < NG then fill (a c) i else a c i

/-- Loop over the upper ghost zones on the last rank. -/
def faceR (d : Dim) (fill : (ℤ → V) → ℤ → V) (a : ℤ → ℤ → V) : ℤ → ℤ → V := fun c i =>
  if c = d.C - 1 ∧ d.N + NG ≤ i ∧ i < d.N + 2 * NG then fill (a c) i else a c i

/-- `sync_mpi_boundaries_X?L`, core/mpi.c:216-224,236-244,256-264: storage `N..N+NG-1` goes to the right neighbour's
`0..NG-1`. Nothing is received from `MPI_PROC_NULL`. -/
def syncL (d : Dim) (a : ℤ → ℤ → V) : ℤ → ℤ → V := fun c i =>
  if 0 ≤ i ∧ i < NG then
    match d.leftOf c with
    | some c' => a c' (d.N + i)
    | none => a c i
  else a c i

/-- `sync_mpi_boundaries_X?R`, core/mpi.c:226-234,246-254,266-274: storage `NG..2NG-1` goes to the left neighbour's
`N+NG..N+2NG-1`. -/
def syncR (d : Dim) (a : ℤ → ℤ → V) : ℤ → ℤ → V := fun c i =>
  if d.N + NG ≤ i ∧ i < d.N + 2 * NG then
    match d.rightOf c with
    | some c' => a c' (i - d.N)
    | none => a c i
  else a c i

/-- The four steps in one direction. -/
def lineStage (d : Dim) (fL fR : (ℤ → V) → ℤ → V) (a : ℤ → ℤ → V) : ℤ → ℤ → V :=
  syncR d (faceR d fR (syncL d (faceL fL a)))

end line

variable {K : Type*} [Field K]

/-- `prim[B1..B3] *= rescale_fac`, core/bounds.c:32-36. -/
def rescale (f : K) (v : Cell K) : Cell K :=
  { v with prim := fun q => if q = 5 ∨ q = 6 ∨ q = 7 then v.prim q * f else v.prim q }

/-- `prim[U2] *= -1; prim[B2] *= -1`, core/bounds.c:107-108,144-145. -/
def flip (v : Cell K) : Cell K :=
  { v with prim := fun q => if q = 3 ∨ q = 6 then v.prim q * (-1) else v.prim q }

/-- Grid, metric determinant (by global zone index) and problem boundary (by global zone index). -/
structure Cfg (K : Type*) where
  d1 : Dim
  d2 : Dim
  d3 : Dim
  gdet : ℤ → ℤ → K
  probL : ℤ → ℤ → ℤ → Cell K
  probR : ℤ → ℤ → ℤ → Cell K

/-- Global index of storage index `i` on rank coordinate `c` (core/coord.c:40-46 adds `global_start`). -/
def glob (d : Dim) (c i : ℤ) : ℤ := c * d.N + i - NG

/-- Lower radial ghost zones, core/bounds.c:20-45, on the line with global indices `J`, `Kk`. The problem's
`bound_gas_prob_x1l` is taken to set the zone from its indices alone, as the one in prob/bondi does. `none` is
`exit(-1)`. -/
def fillX1L (cfg : Cfg K) : Option (ℤ → ℤ → (ℤ → Cell K) → ℤ → Cell K) :=
  let gd J i := cfg.gdet (glob cfg.d1 0 i) J
  if cfg.d1.N < NG then some fun _ _ a _ => a NG
  else match cfg.d1.left with
    | .outflow => some fun J _ a i => rescale (gd J NG / gd J i) (a NG)
    | .prob => some fun J Kk _ i => cfg.probL (glob cfg.d1 0 i) J Kk
    | .periodic => some fun _ _ a i => a i
    | _ => none

/-- Upper radial ghost zones, core/bounds.c:56-79. -/
def fillX1R (cfg : Cfg K) : Option (ℤ → ℤ → (ℤ → Cell K) → ℤ → Cell K) :=
  let gd J i := cfg.gdet (glob cfg.d1 (cfg.d1.C - 1) i) J
  if cfg.d1.N < NG then some fun _ _ a _ => a (cfg.d1.N - 1 + NG)
  else match cfg.d1.right with
    | .outflow => some fun J _ a i => rescale (gd J (cfg.d1.N - 1 + NG) / gd J i) (a (cfg.d1.N - 1 + NG))
    | .prob => some fun J Kk _ i => cfg.probR (glob cfg.d1 (cfg.d1.C - 1) i) J Kk
    | .periodic => some fun _ _ a i => a i
    | _ => none

/-- Lower polar-angle ghost zones, core/bounds.c:92-118. -/
def fillX2L (d : Dim) : Option ((ℤ → Cell K) → ℤ → Cell K) :=
  if d.N < NG then some fun a _ => a NG
  else match d.left with
    | .outflow => some fun a _ => a NG
    | .polar => some fun a j => flip (a (-j + 2 * NG - 1))
    | .periodic => some fun a j => a j
    | _ => none

/-- Upper polar-angle ghost zones, core/bounds.c:129-155. -/
def fillX2R (d : Dim) : Option ((ℤ → Cell K) → ℤ → Cell K) :=
  if d.N < NG then some fun a _ => a (d.N - 1 + NG)
  else match d.right with
    | .outflow => some fun a _ => a (d.N - 1 + NG)
    | .polar => some fun a j => flip (a (-j + 2 * (d.N + NG) - 1))
    | .periodic => some fun a j => a j
    | _ => none

/-- Lower azimuthal ghost zones, core/bounds.c:166-186. -/
def fillX3L (d : Dim) : Option ((ℤ → Cell K) → ℤ → Cell K) :=
  if d.N < NG then some fun a _ => a NG
  else match d.left with
    | .outflow => some fun a _ => a NG
    | .periodic => some fun a k => a k
    | _ => none

/-- Upper azimuthal ghost zones, core/bounds.c:197-217. The outflow branch reads storage `NG` (core/bounds.c:205),
the first active zone, as in the code. -/
def fillX3R (d : Dim) : Option ((ℤ → Cell K) → ℤ → Cell K) :=
  if d.N < NG then some fun a _ => a (d.N - 1 + NG)
  else match d.right with
    | .outflow => some fun a _ => a NG
    | .periodic => some fun a k => a k
    | _ => none

/-- Storage index of an active zone. -/
def act (d : Dim) (i : ℤ) : Prop := NG ≤ i ∧ i < d.N + NG
/-- Storage index of any zone. -/
def all (d : Dim) (i : ℤ) : Prop := 0 ≤ i ∧ i < d.N + 2 * NG

instance (d : Dim) (i : ℤ) : Decidable (act d i) := by unfold act; infer_instance
instance (d : Dim) (i : ℤ) : Decidable (all d i) := by unfold all; infer_instance

/-- First direction, core/bounds.c:16-86: active `j`, `k`. -/
def stage1 (cfg : Cfg K) (fL fR : ℤ → ℤ → (ℤ → Cell K) → ℤ → Cell K) (W : World (Cell K)) : World (Cell K) :=
  fun c1 c2 c3 i j k =>
    if act cfg.d2 j ∧ act cfg.d3 k then
      lineStage cfg.d1 (fL (glob cfg.d2 c2 j) (glob cfg.d3 c3 k)) (fR (glob cfg.d2 c2 j) (glob cfg.d3 c3 k))
        (fun c i => W c c2 c3 i j k) c1 i
    else W c1 c2 c3 i j k

/-- Second direction, core/bounds.c:88-160: all `i`, active `k`. -/
def stage2 (cfg : Cfg K) (fL fR : (ℤ → Cell K) → ℤ → Cell K) (W : World (Cell K)) : World (Cell K) :=
  fun c1 c2 c3 i j k =>
    if all cfg.d1 i ∧ act cfg.d3 k then
      lineStage cfg.d2 fL fR (fun c j => W c1 c c3 i j k) c2 j
    else W c1 c2 c3 i j k

/-- Third direction, core/bounds.c:162-222: all `i`, all `j`. -/
def stage3 (cfg : Cfg K) (fL fR : (ℤ → Cell K) → ℤ → Cell K) (W : World (Cell K)) : World (Cell K) :=
  fun c1 c2 c3 i j k =>
    if all cfg.d1 i ∧ all cfg.d2 j then
      lineStage cfg.d3 fL fR (fun c k => W c1 c2 c i j k) c3 k
    else W c1 c2 c3 i j k

/-- `bound_prim`, core/bounds.c:13-222. `none` is `exit(-1)` because of an unsupported boundary choice. -/
def boundPrim (cfg : Cfg K) (W : World (Cell K)) : Option (World (Cell K)) := do
  let f1L ← fillX1L cfg
  let f1R ← fillX1R cfg
  let f2L ← fillX2L cfg.d2
  let f2R ← fillX2R cfg.d2
  let f3L ← fillX3L cfg.d3
  let f3R ← fillX3R cfg.d3
  some (stage3 cfg f3L f3R (stage2 cfg f2L f2R (stage1 cfg f1L f1R W)))

end Nubhlight.Bounds
