import Mathlib.Algebra.Field.Basic
import Mathlib.Algebra.Order.Field.Basic
import Mathlib.Algebra.BigOperators.Group.Finset.Basic
import Mathlib.Algebra.Order.Floor.Ring

set_option autoImplicit false

/-!
# Tracer particles

core/tracers.c and the tracer dump of core/io.c. Numbers are exact elements of a field. Not modelled: the state computed at the tracer (metric, equation of state) and its push.
-/

namespace Nubhlight.Tracers

variable {K : Type*} [Field K]

/-! ## Interpolation -/

/-- `lagrange_basis`, core/tracers.c:56-68. -/
def lagrangeBasis (j : ℕ) (x : K) (xs : ℕ → K) (num : ℕ) : K :=
  if num = 0 ∨ num = 1 then 1
  else (List.range num).foldl (fun l m => if m ≠ j then l * ((x - xs m) / (xs j - xs m)) else l) 1

/-- Zone centres in one direction, core/coord.c:58-61 as called by `get_nearby_coords`, core/tracers.c:29-49: node `a` of the stencil around zone `i0`; `g` is `global_start`, three ghost zones. -/
def node (startx dx : K) (g i0 : ℤ) (a : ℕ) : K := startx + (((i0 - 1 + a + g : ℤ) : K) + 1 / 2 - 3) * dx

/-- The flat index, core/tracers.c:104. -/
def flat (size sk sj : ℕ) (i j k ip : ℕ) : ℕ := ip + size * (k + sk * (j + sj * i))

/-- `lagrange_interp_grid_3d` for one component, core/tracers.c:79-110 with `LA_NP = 3`: `v a b c` is the value read at stencil position `(a, b, c)`, `xs d` the nodes of direction `d`. -/
def interp3 (xs : Fin 3 → ℕ → K) (X : Fin 3 → K) (v : ℕ → ℕ → ℕ → K) : K :=
  ∑ a ∈ Finset.range 3, ∑ b ∈ Finset.range 3, ∑ c ∈ Finset.range 3,
    v a b c * lagrangeBasis a (X 0) (xs 0) 3 * lagrangeBasis b (X 1) (xs 1) 3 * lagrangeBasis c (X 2) (xs 2) 3

/-! ## Sampling -/

/-- A tracer: identifier (stored in `nscatt`), mass (stored in `w`), position. -/
structure Tracer (K : Type*) where
  id : ℤ
  mass : K
  X : Fin 3 → K

/-- `sample_tracers_in_cell`, core/tracers.c:296-314: `mass` is the mass of the zone, `corner` its lower corner, `rnd` the random numbers. New tracers, in the order made, and the new `last_id`. -/
def sampleCell (mass : K) (corner dx : Fin 3 → K) (rnd : ℕ → Fin 3 → K) (lastId : ℤ) (n : ℕ) : List (Tracer K) × ℤ :=
  ((List.range n).map fun t : ℕ => ⟨lastId + (t : ℤ), mass / n, fun d => corner d + rnd t d * dx d⟩, lastId + n)

/-- A marked zone of this rank. -/
structure Cell (K : Type*) where
  mass : K
  corner : Fin 3 → K
  rnd : ℕ → Fin 3 → K

/-- The loop over marked zones, core/tracers.c:349-353. -/
def sampleCells (dx : Fin 3 → K) (n : ℕ) : List (Cell K) → ℤ → List (Tracer K) × ℤ
  | [], last => ([], last)
  | c :: l, last =>
    let r := sampleCell c.mass c.corner dx c.rnd last n
    let s := sampleCells dx n l r.2
    (r.1 ++ s.1, s.2)

/-- Tracers per zone, core/tracers.c:343-345; `none`: no marked zone, the division by zero. The loop is run with a bound that always suffices (`C68_requested`). -/
def bumpUntil (ncells total : ℕ) : ℕ → ℕ → ℕ
  | 0, t => t
  | fuel + 1, t => if t * ncells < total then bumpUntil ncells total fuel (t + 1) else t

def perCell (ncells total : ℕ) : Option ℕ :=
  if ncells = 0 then none else some (bumpUntil ncells total total (max (total / ncells) 1))

/-- The first identifier of a rank, core/tracers.c:334-337: `(int)(1.5 * (total / nprocs) * rank)`. -/
def idBase (total nprocs rank : ℕ) : ℕ := 3 * (total / nprocs) * rank / 2

/-- `sample_all_tracers` on rank `rank` of `nprocs`, core/tracers.c:322-365, without the spreading over threads: `total` is the number requested (at most `INT_MAX`), `ntot` the number of zones,
`cells r` the marked zones of rank `r`. `none`: exit or division by zero. -/
def sampleAll (total ntot nprocs : ℕ) (dx : Fin 3 → K) (cells : ℕ → List (Cell K)) (rank : ℕ) : Option (List (Tracer K)) :=
  if total < ntot then none
  else (perCell (((List.range nprocs).map fun r => (cells r).length).sum) total).map fun t =>
    (sampleCells dx t (cells rank) (idBase total nprocs rank)).1

/-! ## Output -/

/-- What the dump loop leaves in memory: the array `Xcart` and the columns; `none` is uninitialised. -/
structure Cols (K : Type*) where
  Xcart : ℕ → Option K
  x : ℕ → Option K
  y : ℕ → Option K
  z : ℕ → Option K

/-- The body of the loop for tracer number `n` at Cartesian position `p`, core/io.c:2068-2077. -/
def dumpOne (n : ℕ) (p : Fin 3 → K) (c : Cols K) : Cols K :=
  let Xcart : ℕ → Option K := fun i => if i = n * 3 then some (p 0) else if i = n * 3 + 1 then some (p 1) else if i = n * 3 + 2 then some (p 2) else c.Xcart i
  ⟨Xcart, Function.update c.x n (Xcart 1), Function.update c.y n (Xcart 2), Function.update c.z n (Xcart 3)⟩

/-- The loop of `dump_tracers`, core/io.c:2038-2112. -/
def dumpLoop : List (Fin 3 → K) → ℕ → Cols K → Cols K
  | [], _, c => c
  | p :: l, n, c => dumpLoop l (n + 1) (dumpOne n p c)

/-- Freshly allocated arrays, core/io.c:2000-2004. -/
def fresh : Cols K := ⟨fun _ => none, fun _ => none, fun _ => none, fun _ => none⟩

/-- The magnetic columns `bcon`, `bcov` of the dump, core/io.c:2104-2105, from the two fields of the state at the tracer. -/
def magCols (qbcon _qbcov : Fin 4 → K) : (Fin 4 → K) × (Fin 4 → K) := (qbcon, qbcon)

/-- A zone of `Nem_phys` or `Nabs_phys` when `dump_tracers` runs (core/diag.c:236-239, after `dump`): `acc` is the number counted in the interval. Zones of the rank are divided by the output
interval in full dumps only, core/io.c:926, 1037-1042 (`ZLOOP`); ghost zones are zero, core/mpi.c:417-434. -/
def zoneRate (full : Bool) (DTd : K) (active : Bool) (acc : K) : K := if active then (if full then acc / DTd else acc) else 0

/-- The rate columns, core/io.c:2058-2061, 2094-2098. -/
def rateCol (full : Bool) (DTd : K) (xs : Fin 3 → ℕ → K) (X : Fin 3 → K) (active : ℕ → ℕ → ℕ → Bool) (acc : ℕ → ℕ → ℕ → K) : K :=
  interp3 xs X fun a b c => zoneRate full DTd (active a b c) (acc a b c)

end Nubhlight.Tracers
