import Verif.Model.FluidStep

set_option autoImplicit false

/-!
# Restart files of the fluid

What core/io.c saves of the fluid and how a run starts from it: the time, the next step and the variables of the active zones.
Builds as in `FluidStep`: no radiation, no electrons.
-/

namespace Nubhlight.FluidStep

open Bounds

variable {K : Type*} [Field K] [LinearOrder K] [IsStrictOrderedRing K]

/-- What a restart file holds of the fluid: dataset `P` by global zone (`fdims_prim`, core/io.c:98), and `dt` and `t` from the
header (core/io.c:1271, 1281). The other header items are C64. -/
structure Saved (K : Type*) where
  P : ℤ → ℤ → ℤ → Prim K
  dt : K
  t : K

/-- A rank writes its block: `fcount_prim` zones from memory index `mstart_prim` to file index `fstart_prim`, core/io.c:98-102,
199-202 (the first active zone of the rank), 2253-2255, 2280. -/
def writeBlock (S : Setup K) (W : World (Cell K)) (f : ℤ → ℤ → ℤ → Prim K) (c : ℤ × ℤ × ℤ) : ℤ → ℤ → ℤ → Prim K := fun I J Kk =>
  let x := I - c.1 * S.cfg.d1.N
  let y := J - c.2.1 * S.cfg.d2.N
  let z := Kk - c.2.2 * S.cfg.d3.N
  if (0 ≤ x ∧ x < S.cfg.d1.N) ∧ (0 ≤ y ∧ y < S.cfg.d2.N) ∧ (0 ≤ z ∧ z < S.cfg.d3.N) then (W c.1 c.2.1 c.2.2 (NG + x) (NG + y) (NG + z)).prim
  else f I J Kk

/-- `restart_write` of a state, core/io.c:1271, 1281, 1403: the ranks write in the given order to a dataset that starts as `old`. -/
def save (S : Setup K) (order : List (ℤ × ℤ × ℤ)) (old : ℤ → ℤ → ℤ → Prim K) (s : State K) : Saved K :=
  ⟨order.foldl (writeBlock S s.W) old, s.dt, s.t⟩

/-- Arrays after `zero_arrays` (core/coord.c:552-565) and `READ_PRIM(P, TYPE_DBL)` (core/io.c:1677): active zones from the file,
the rest zero, flags zero. -/
def readP (S : Setup K) (f : ℤ → ℤ → ℤ → Prim K) : World (Cell K) := fun c1 c2 c3 i j k =>
  if act S.cfg.d1 i ∧ act S.cfg.d2 j ∧ act S.cfg.d3 k then
    ⟨f (c1 * S.cfg.d1.N + (i - NG)) (c2 * S.cfg.d2.N + (j - NG)) (c3 * S.cfg.d3.N + (k - NG)), 0⟩
  else ⟨fun _ => 0, 0⟩

/-- `restart_init` (core/io.c:1858-1942: boundary pass, no floors), then steps. -/
def resume (S : Setup K) (f : Saved K) (ms : List (Mem K)) : Option (State K) :=
  (bound S (readP S f.P)).bind fun W => ms.foldlM (fun s m => step S m s) ⟨W, f.dt, f.t⟩

/-- One run of the executable between two restart files. -/
structure Session (K : Type*) where
  setup : Setup K
  ms : List (Mem K)
  order : List (ℤ × ℤ × ℤ)
  old : ℤ → ℤ → ℤ → Prim K

/-- Any number of runs of the executable, each from the file the previous one left. -/
def sessions (f : Saved K) (l : List (Session K)) : Option (Saved K) :=
  l.foldlM (fun f x => (resume x.setup f x.ms).map (save x.setup x.order x.old)) f

end Nubhlight.FluidStep
