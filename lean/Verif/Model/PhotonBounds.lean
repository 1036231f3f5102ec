import Mathlib.Algebra.Order.Field.Basic
import Mathlib.Data.Fin.Basic
import Verif.Model.PhotonList

set_option autoImplicit false

/-!
# Boundary conditions of superphotons

core/bounds.c: `bound_rad_transport`, `bound_rad_isactive`, `rad_error_check`, the position test of `rad_mpi_transport` and the decision
taken for each photon in `bound_superphotons`. Numbers are exact elements of an ordered field. `exit(-1)` is `none`. Not modelled:
`polar_fix` (never called) and the statistics of `record_lepton_flux`.
-/

namespace Nubhlight.PhotonBounds

open PhotonList (Act)

variable {K : Type*} [Field K] [LinearOrder K]

/-- Boundary types, core/decs.h:241-247. -/
inductive RadBC
  | outflow
  | periodic
  | polar
  | prob
  | escape
  | camera
  | equilib
  deriving DecidableEq

/-- The globals the boundary code reads: extent of the radiation domain (`startx_rad`, `stopx_rad`), upper radial end of the fluid grid
(`stopx[1]`), extent of this rank (`startx_proc`, `stopx_proc`), ranks per direction and boundary macros; directions 1, 2, 3 are `0, 1, 2`. -/
structure Dom (K : Type*) where
  startR : Fin 3 → K
  stopR : Fin 3 → K
  stop1 : K
  startP : Fin 3 → K
  stopP : Fin 3 → K
  ncpu : Fin 3 → ℕ
  bcL : Fin 3 → RadBC
  bcR : Fin 3 → RadBC
  minkowski : Bool

/-- The fields of `struct of_photon` read or written here, core/decs.h:574-593. -/
structure Ph (K : Type*) where
  X : Fin 3 → Fin 4 → K
  Kcov : Fin 3 → Fin 4 → K
  Kcon : Fin 3 → Fin 4 → K
  w : K
  isTracer : Bool

/-- The two branches of `bound_rad_transport` for one direction, core/bounds.c:531-549 (directions 2 and 3: 551-569, 571-589): `X` is the
tested position, `x` a stored one, `may` is `NiCPU == 1 || is_transported`. -/
def wrap1 (start stop : K) (perL perR may : Bool) (X x : K) : K :=
  let x1 := if X < start ∧ perL = true ∧ may = true then stop - (start - x) else x
  if X > stop ∧ perR = true ∧ may = true then start + (x1 - stop) else x1

/-- `bound_rad_transport`, core/bounds.c:529-590. -/
def transport (c : Dom K) (X : Fin 4 → K) (tr : Bool) (p : Ph K) : Ph K :=
  { p with
    X := fun n => Fin.cases (p.X n 0) fun d =>
      wrap1 (c.startR d) (c.stopR d) (c.bcL d == .periodic) (c.bcR d == .periodic) (c.ncpu d == 1 || tr) (X d.succ) (p.X n d.succ) }

/-- A face other than the upper radial one in `bound_rad_isactive`, core/bounds.c:604-618 (others 665-727): whether the photon survives. -/
def face (bc : RadBC) (beyond : Bool) : Option Bool :=
  if beyond then match bc with
    | .periodic => some true
    | .escape => some false
    | _ => none
  else some true

/-- The upper radial face for photons, core/bounds.c:620-642, and for tracers, 646-663 (`BC_REQUILIB` is not defined, so that branch tests
for type 0 and also exits). Result: survives, handed to `record_superphoton`. -/
def faceX1R (mink : Bool) (bc : RadBC) (beyond tracer : Bool) : Option (Bool × Bool) :=
  if beyond then match bc with
    | .periodic => some (true, false)
    | .escape => some (false, false)
    | .camera => if mink then none else some (false, !tracer)
    | _ => none
  else some (true, false)

/-- `bound_rad_isactive`, core/bounds.c:592-730. `cone` is the outcome of the angle test 596-602 (false unless `METRIC == MKS`). Result:
active, recorded. -/
def isActive (c : Dom K) (cone : Bool) (X : Fin 4 → K) (tracer : Bool) : Option (Bool × Bool) :=
  (face (c.bcL 0) (X 1 < c.startR 0)).bind fun a1 =>
  (faceX1R c.minkowski (c.bcR 0) (if tracer then X 1 > c.stop1 else X 1 > c.stopR 0) tracer).bind fun a2 =>
  (face (c.bcL 1) (X 2 < c.startR 1)).bind fun a3 =>
  (face (c.bcR 1) (X 2 > c.stopR 1)).bind fun a4 =>
  (face (c.bcL 2) (X 3 < c.startR 2)).bind fun a5 =>
  (face (c.bcR 2) (X 3 > c.stopR 2)).bind fun a6 =>
  some (!cone && a1 && a2.1 && a3 && a4 && a5 && a6, a2.2)

/-- `SMALL`, core/decs.h:87. -/
def SMALL : K := 1 / 10 ^ 20

/-- `rad_error_check`, core/bounds.c:437-444. -/
def noError (p : Ph K) : Bool := !(p.w < SMALL || p.Kcov 2 0 > 0)

/-- The position test of `rad_mpi_transport`, core/bounds.c:453-455. -/
def leaves (c : Dom K) (X : Fin 4 → K) : Bool :=
  ((X 1 < c.startP 0 || X 1 > c.stopP 0) && (1 < c.ncpu 0 : Bool)) || ((X 2 < c.startP 1 || X 2 > c.stopP 1) && (1 < c.ncpu 1 : Bool)) ||
    ((X 3 < c.startP 2 || X 3 > c.stopP 2) && (1 < c.ncpu 2 : Bool))

/-- The body of the loop in `bound_superphotons`, core/bounds.c:376-402: `X` and `interpOk` are what `get_X_K_interp` returned. Result:
what happens to the photon, whether it was handed to `record_superphoton`, and the photon after `bound_rad_transport`. -/
def fate (c : Dom K) (cone interpOk : Bool) (X : Fin 4 → K) (p : Ph K) : Option (Act × Bool × Ph K) :=
  (isActive c cone X p.isTracer).map fun a =>
    let q := transport c X false p
    (if !a.1 || !noError q || !interpOk then .lose else if leaves c X then .send else .keep, a.2, q)

end Nubhlight.PhotonBounds
