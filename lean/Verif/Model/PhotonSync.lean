import Mathlib.Data.Multiset.Filter
import Mathlib.Data.Fintype.Pi
import Mathlib.Algebra.Order.Field.Basic
import Verif.Model.PhotonBounds

set_option autoImplicit false

/-!
# Exchange of superphotons between ranks

core/mpi.c `sync_mpi_photons` over a Cartesian grid of ranks, and the boundary pass around it (core/bounds.c:344-427) repeated as in
core/io.c:1928-1932. All ranks are modelled at once; a matched pair of `MPI_Sendrecv` calls delivers what was sent. Linked lists are
multisets (their surgery is `Verif.Model.PhotonList`). A particle is an identifier and its position at the end of the step (the result
of `get_X_K_interp`; shifting the stored states shifts that position, `C38_wrap_interp`). Particles are assumed active, so that only
positions matter.
-/

namespace Nubhlight.PhotonSync

open PhotonBounds (wrap1)

/-- Geometry: ranks per direction, lower end and width of a rank's box (`startx_proc`, `stopx_proc`, core/coord.c:453-458, for equal
sub-domains), radiation domain, periodic topology (core/mpi.c:40-42) and periodic radiation faces. -/
structure Grid (K : Type*) where
  N : Fin 3 → ℕ
  s : Fin 3 → K
  h : Fin 3 → K
  startR : Fin 3 → K
  stopR : Fin 3 → K
  per : Fin 3 → Bool
  perL : Fin 3 → Bool
  perR : Fin 3 → Bool

variable {K : Type*} [Field K] [LinearOrder K] {T : Type}

/-- Coordinates of a rank, core/mpi.c:47. -/
abbrev Rank (g : Grid K) := (d : Fin 3) → Fin (g.N d)

/-- `startx_proc`, core/coord.c:453-455. -/
def lo (g : Grid K) (r : Rank g) (d : Fin 3) : K := g.s d + (r d : ℕ) * g.h d

/-- `stopx_proc`, core/coord.c:456-458. -/
def hi (g : Grid K) (r : Rank g) (d : Fin 3) : K := lo g r d + g.h d

/-- `neighbors` at the two faces of direction `d`, core/mpi.c:52-72 and 478-487; `none` is `MPI_PROC_NULL`. -/
def nbr (g : Grid K) (d : Fin 3) (right : Bool) (r : Rank g) : Option (Rank g) :=
  if right then
    if h : (r d : ℕ) + 1 < g.N d then some (Function.update r d ⟨r d + 1, h⟩)
    else if g.per d then some (Function.update r d ⟨0, Nat.lt_of_le_of_lt (Nat.zero_le _) (r d).isLt⟩) else none
  else
    if 0 < (r d : ℕ) then some (Function.update r d ⟨r d - 1, Nat.lt_of_le_of_lt (Nat.sub_le _ _) (r d).isLt⟩)
    else if g.per d then some (Function.update r d ⟨g.N d - 1, Nat.sub_lt (Nat.lt_of_le_of_lt (Nat.zero_le _) (r d).isLt) Nat.one_pos⟩)
    else none

/-- A particle: what it is known by (a number, or all its contents: nothing below looks at it) and its position. -/
structure Ph (K : Type*) (T : Type := ℕ) where
  id : T
  x : Fin 3 → K

/-- `bound_rad_transport(X, ph, tr)`, core/bounds.c:529-590, with `X` the particle's position. -/
def wrap (g : Grid K) (tr : Bool) (p : Ph K T) : Ph K T :=
  { p with x := fun d => wrap1 (g.startR d) (g.stopR d) (g.perL d) (g.perR d) (g.N d == 1 || tr) (p.x d) (p.x d) }

/-- Where a rank puts a particle: `ph_send_L[i]`, `ph_send_R[i]`, or `ph_recv` (for a particle to be sent initially: nowhere). -/
inductive Slot
  | send (d : Fin 3) (right : Bool)
  | done
  deriving DecidableEq

/-- The test for one direction, core/mpi.c:459-463, 548-552. -/
def side (g : Grid K) (r : Rank g) (d : Fin 3) (x : K) : Option Bool :=
  if x < lo g r d then some false else if x > hi g r d then some true else none

/-- The loop over directions `from, ..., 3`, core/mpi.c:458-472 and 547-560: the first direction in which the particle is outside. -/
def slotFrom (g : Grid K) (r : Rank g) (from_ : ℕ) (x : Fin 3 → K) : Slot :=
  match (if from_ ≤ 0 then (side g r 0 (x 0)).map (Slot.send 0) else none) with
  | some s => s
  | none => match (if from_ ≤ 1 then (side g r 1 (x 1)).map (Slot.send 1) else none) with
    | some s => s
    | none => match (if from_ ≤ 2 then (side g r 2 (x 2)).map (Slot.send 2) else none) with
      | some s => s
      | none => .done

/-- Contents of the send and receive lists of all ranks. -/
abbrev World (g : Grid K) (T : Type := ℕ) := Rank g → Slot → Multiset (Ph K T)

/-- First sorting of the particles handed to the exchange, core/mpi.c:454-473. A particle that is inside in every direction is skipped:
it is in no list any more. -/
def start (g : Grid K) (mpi : Rank g → Multiset (Ph K T)) : World g T := fun r s =>
  match s with
  | .done => 0
  | .send d b => (mpi r).filter fun p => slotFrom g r 0 p.x = .send d b

/-- What a rank receives in direction `d`, core/mpi.c:489-536: from the left what the left neighbour sends right, from the right what the
right neighbour sends left. -/
def received (g : Grid K) (d : Fin 3) (W : World g T) (r : Rank g) : Multiset (Ph K T) :=
  (match nbr g d false r with
    | some q => W q (.send d true)
    | none => 0) +
  (match nbr g d true r with
    | some q => W q (.send d false)
    | none => 0)

/-- Direction `d` of the exchange, core/mpi.c:477-563: received particles are shifted and forwarded or kept, according to their position
before the shift. -/
def stage (g : Grid K) (d : Fin 3) (W : World g T) : World g T := fun r s =>
  (if s = .send d false ∨ s = .send d true then 0 else W r s) +
    ((received g d W r).filter fun p => slotFrom g r (d + 1) p.x = s).map (wrap g true)

/-- `sync_mpi_photons`, core/mpi.c:437-563: what each rank has in `ph_recv` at the end. -/
def sync (g : Grid K) (mpi : Rank g → Multiset (Ph K T)) (r : Rank g) : Multiset (Ph K T) :=
  stage g 2 (stage g 1 (stage g 0 (start g mpi))) r .done

/-- The test of `rad_mpi_transport`, core/bounds.c:453-455. -/
def leaves (g : Grid K) (r : Rank g) (x : Fin 3 → K) : Bool :=
  ((side g r 0 (x 0)).isSome && (1 < g.N 0 : Bool)) || ((side g r 1 (x 1)).isSome && (1 < g.N 1 : Bool)) ||
    ((side g r 2 (x 2)).isSome && (1 < g.N 2 : Bool))

/-- One call of `bound_superphotons` for active particles, core/bounds.c:375-427: shift in undivided directions, decide from the position
before the shift, exchange. -/
def pass (g : Grid K) (P : Rank g → Multiset (Ph K T)) (r : Rank g) : Multiset (Ph K T) :=
  ((P r).filter fun p => leaves g r p.x = false).map (wrap g false) +
    sync g (fun r => ((P r).filter fun p => leaves g r p.x = true).map (wrap g false)) r

/-- The repeated passes after a restart, core/io.c:1929-1932. -/
def passes (g : Grid K) (P : Rank g → Multiset (Ph K T)) : ℕ → Rank g → Multiset (Ph K T)
  | 0 => P
  | n + 1 => pass g (passes g P n)

/-- `max_comm_steps`, core/io.c:1929. -/
def maxCommSteps (g : Grid K) : ℕ := 2 * (g.N 0 + g.N 1 + g.N 2)

end Nubhlight.PhotonSync
