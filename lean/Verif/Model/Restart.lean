import Mathlib.Algebra.Order.Field.Basic
import Mathlib.Algebra.Order.Ring.Rat
import Mathlib.Data.Nat.Basic
import Mathlib.Logic.Function.Basic

set_option autoImplicit false

/-!
# Restart files

Source: core/io.c:1212-1535 (`restart_write`), 1537-1791 (`restart_read`), 1858-1943 (`restart_init`), 2248-2343 (`write_array`,
`read_array`); core/mpi.c:640-652 (`mpi_accumulate_int`); core/rad_utils.c:392-406 (`copy_photon`), 810-823 (`count_particles_local`).

The HDF5 library is represented by what it promises: an array in a file is a function of the position, a hyperslab write sets a block of
positions. Numbers of particles are natural numbers (the code uses `int`; overflow is not represented).
-/

namespace Nubhlight.Restart

/-! ## Offsets -/

/-- The loop of `mpi_accumulate_int`, core/mpi.c:645-648, on the gathered counts: the sum over the ranks before this one. -/
def accumulateInt (buffer : ℕ → ℕ) : ℕ → ℕ
  | 0 => 0
  | rank + 1 => accumulateInt buffer rank + buffer rank

/-- `mpi_reduce_int` of the counts over `n` ranks, core/io.c:1464. -/
def total (buffer : ℕ → ℕ) (n : ℕ) : ℕ := ((List.range n).map buffer).sum

/-- Writing the block of one rank (core/io.c:1506-1516): `none` is a position never written. -/
def writeSlab {P : Type*} (start : ℕ) (data : List P) (f : ℕ → Option P) : ℕ → Option P := fun p =>
  if start ≤ p ∧ p < start + data.length then data[p - start]? else f p

/-- All ranks write their particles, in the order `order`; core/io.c:1463-1516. -/
def writeAll {P : Type*} (data : ℕ → List P) (order : List ℕ) : ℕ → Option P :=
  order.foldl (fun f r => writeSlab (accumulateInt (fun i => (data i).length) r) (data r) f) fun _ => none

/-- Reading a block, core/io.c:1763-1773. -/
def readSlab {P : Type*} (f : ℕ → Option P) (start n : ℕ) : List (Option P) := (List.range n).map fun k => f (start + k)

/-! ## Particles -/

/-- `struct of_photon` in memory, core/decs.h:574-593, without the link. The two flags can be uninitialised (`none`). -/
structure Photon (K : Type*) where
  X : Fin 3 → Fin 4 → K
  Kcov : Fin 3 → Fin 4 → K
  Kcon : Fin 3 → Fin 4 → K
  w : K
  KdotKprev : K
  type : ℤ
  nscatt : ℤ
  origin : Fin 4 → ℤ
  t0 : K
  isTracked : Option ℤ
  hasOscillated : Option ℤ

/-- `copy_photon`, core/rad_utils.c:392-406: everything but the two flags, which keep what the destination had. -/
def copyPhoton {K : Type*} (ph phc : Photon K) : Photon K :=
  { phc with X := ph.X, Kcov := ph.Kcov, Kcon := ph.Kcon, origin := ph.origin, w := ph.w, KdotKprev := ph.KdotKprev,
             nscatt := ph.nscatt, t0 := ph.t0, type := ph.type }

/-- Memory from `malloc`: anything (`junk`), with the flags marked as uninitialised. -/
def fresh {K : Type*} (junk : Photon K) : Photon K := { junk with isTracked := none, hasOscillated := none }

variable {K : Type*} [Field K] [LinearOrder K]

/-- `SMALL`, core/decs.h:87. -/
def SMALL : K := 1 / 10 ^ 20

/-- `count_particles_local`, core/rad_utils.c:810-823. -/
def countLocal (lists : List (List (Photon K))) : ℕ := (lists.flatten.filter fun p => decide (SMALL < p.w)).length

/-- Filling the buffer, core/io.c:1463-1480: all particles of all threads are copied into space for `countLocal` of them; `none` is a
write beyond the buffer. `junk` is what the memory held. -/
def fillBuffer (junk : Photon K) (lists : List (List (Photon K))) : Option (List (Photon K)) :=
  if lists.flatten.length ≤ countLocal lists then some (lists.flatten.map fun p => copyPhoton p (fresh junk)) else none

/-- The buffer as written: `countLocal` entries. -/
def rankData (junk : Photon K) (lists : List (List (Photon K))) : Option (List (Photon K)) :=
  (fillBuffer junk lists).map fun b => b.take (countLocal lists)

/-- Dealing the particles to the threads, core/io.c:1776-1782: particle `ip` becomes the head of list `(start + ip) % T`. -/
def deal {P : Type*} (T start : ℕ) : ℕ → List P → (ℕ → List P) → ℕ → List P
  | _, [], lists => lists
  | ip, p :: ps, lists => deal T start (ip + 1) ps (Function.update lists ((start + ip) % T) (p :: lists ((start + ip) % T)))

/-- What a rank's threads hold after `restart_read`, core/io.c:1734-1782, given the entries read. -/
def loaded (junk : Photon K) (T start : ℕ) (data : List (Photon K)) : ℕ → List (Photon K) :=
  deal T start 0 (data.map fun p => copyPhoton p (fresh junk)) fun _ => []

/-! ## Scalars -/

/-- Scalars in the header: only the first rank writes (core/io.c:212-213), every rank receives that value (core/io.c:2326-2334). Value of rank
`r` after a restart, given the values before. -/
def scalarAfter {A : Type*} (before : ℕ → A) (_ : ℕ) : A := before 0

/-! ## The files on disk -/

/-- A restart file: absent, incomplete, or complete with the ids in its header and the simulation state. -/
inductive File (S : Type*)
  | absent
  | incomplete
  | complete (restartId permId : ℕ) (state : S)
  deriving DecidableEq

/-- `restart.last`: absent, empty (truncated), or naming a temporary file. -/
inductive Ptr
  | absent
  | empty
  | names (id : ℕ)
  deriving DecidableEq

structure Disk (S : Type*) where
  ptr : Ptr
  temp : ℕ → File S
  perm : ℕ → File S

/-- The program: `restart_id`, `restart_perm_id` (core/io.c:143). -/
structure Proc where
  restartId : ℕ
  permId : ℕ

/-- The successive states of the disk while a temporary restart is written, core/io.c:1216-1235, 1241-1523, 1525-1532: the pointer is opened
for writing (truncated), written, the file is created, completed, and the file three ids back (counted after the increment) removed. -/
def tempPhases {S : Type*} (q : Proc) (s : S) (d : Disk S) : List (Disk S) :=
  let d1 := { d with ptr := .empty }
  let d2 := { d1 with ptr := .names q.restartId }
  let d3 := { d2 with temp := Function.update d2.temp q.restartId .incomplete }
  let d4 := { d3 with temp := Function.update d3.temp q.restartId (.complete (q.restartId + 1) q.permId s) }
  let d5 := if 3 ≤ q.restartId + 1 then { d4 with temp := Function.update d4.temp (q.restartId + 1 - 3) .absent } else d4
  [d1, d2, d3, d4, d5]

/-- The same for a permanent restart, core/io.c:1218-1220, 1241-1523. -/
def permPhases {S : Type*} (q : Proc) (s : S) (d : Disk S) : List (Disk S) :=
  let d1 := { d with perm := Function.update d.perm q.permId .incomplete }
  let d2 := { d1 with perm := Function.update d1.perm q.permId (.complete q.restartId (q.permId + 1) s) }
  [d1, d2]

/-- One operation: a completed write, or stopping and starting the program again. -/
inductive Op (S : Type*)
  | temp (s : S)
  | perm (s : S)
  | restart

/-- `restart_init` and `restart_read`, core/io.c:1877-1890, 1545-1560: without a pointer the program starts afresh; with a pointer to
anything but a complete file it stops (`none`). -/
def restartFrom {S : Type*} (d : Disk S) : Option Proc :=
  match d.ptr with
  | .absent => some ⟨0, 0⟩
  | .empty => none
  | .names k => match d.temp k with
    | .complete r p _ => some ⟨r, p⟩
    | _ => none

def applyOp {S : Type*} (x : Proc × Disk S) : Op S → Option (Proc × Disk S)
  | .temp s => some (⟨x.1.restartId + 1, x.1.permId⟩, (tempPhases x.1 s x.2).getLast?.getD x.2)
  | .perm s => some (⟨x.1.restartId, x.1.permId + 1⟩, (permPhases x.1 s x.2).getLast?.getD x.2)
  | .restart => (restartFrom x.2).map fun q => (q, x.2)

/-- A history of operations; `none` once a restart fails. -/
def runOps {S : Type*} (x : Proc × Disk S) : List (Op S) → Option (Proc × Disk S)
  | [] => some x
  | o :: l => (applyOp x o).bind fun y => runOps y l

def start {S : Type*} : Proc × Disk S := (⟨0, 0⟩, ⟨.absent, fun _ => .absent, fun _ => .absent⟩)

end Nubhlight.Restart
