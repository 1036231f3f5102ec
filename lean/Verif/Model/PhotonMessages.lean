import Verif.Model.PhotonSync
import Verif.Model.Messages

set_option autoImplicit false

/-!
# Exchange of superphotons by messages

`sync_mpi_photons` (core/mpi.c:437-583) as run by a rank on its own, with linked lists, counts and messages, in the setting of `Messages`:
any interleaving of ranks, any buffering. All its messages have tag 0, so that a number could be taken for packets or the other way
round; that, a message that does not fit the buffer allocated for it, and reading beyond the end of a list are recorded in `bad`.
Particles as in `PhotonSync`. The division of received packets between threads (lines 568-582) is in `PhotonList`.
-/

namespace Nubhlight.PhotonMessages

open PhotonSync Messages

variable {K : Type*} [Field K] [LinearOrder K] {T : Type}

/-- A message: one `MPI_INT`, or an array of `mpi_photon_type`. -/
inductive Msg (K : Type*) (T : Type := ℕ)
  | count (n : ℕ)
  | packets (l : List (Ph K T))

/-- Memory of a rank: `ph_mpi`; `ph_send_L`, `ph_send_R` (`true` is right) and `nph_send_L`, `nph_send_R`; `nph_recv_L`, `nph_recv_R`;
`ph_tmp_recv`; `ph_recv` and `nph_recv`; `step_sent`, `step_rcvd`, `step_tot`. Lists start with their head. -/
structure Post (K : Type*) (T : Type := ℕ) where
  given : List (Ph K T)
  out : Fin 3 → Bool → List (Ph K T)
  nout : Fin 3 → Bool → ℕ
  nin : Fin 3 → Bool → ℕ
  tmp : List (Ph K T)
  kept : List (Ph K T)
  nkept : ℕ
  sent : ℤ
  rcvd : ℤ
  tot : ℤ
  bad : Bool

/-- Assignment to an element of an array over directions and sides. -/
def upd {α : Type*} (f : Fin 3 → Bool → α) (d : Fin 3) (b : Bool) (x : α) : Fin 3 → Bool → α := fun e c => if e = d ∧ c = b then x else f e c

/-- `swap_ph` to a send list and the count, core/mpi.c:460-461, 464-465, 549-550, 553-554 (`swap_ph`: core/rad_utils.c:558-570). -/
def push (s : Post K T) (d : Fin 3) (b : Bool) (p : Ph K T) : Post K T :=
  { s with out := upd s.out d b (p :: s.out d b), nout := upd s.nout d b (s.nout d b + 1) }

/-- One pass of the loop over `ph_mpi`, core/mpi.c:454-473. -/
def sortOne (g : Grid K) (r : Rank g) (s : Post K T) (p : Ph K T) : Post K T :=
  match slotFrom g r 0 p.x with
  | .send d b => push { s with sent := s.sent + 1, tot := s.tot - 1 } d b p
  | .done => s

/-- core/mpi.c:441-473. -/
def sortAll (g : Grid K) (r : Rank g) (s : Post K T) : Post K T :=
  s.given.foldl (sortOne g r) { s with given := [], out := fun _ _ => [], nout := fun _ _ => 0, nin := fun _ _ => 0, tmp := [], kept := [], nkept := 0 }

/-- Exchange of the numbers: to the right (`b`), core/mpi.c:489-490, or to the left, core/mpi.c:514-515. -/
def sendCount (g : Grid K) (d : Fin 3) (b : Bool) (r : Rank g) : Instr (Rank g) (Post K T) (Msg K T) :=
  .xchg (nbr g d b r) (nbr g d (!b) r) 0 (fun s => .count (s.nout d b)) fun s m =>
    match m with
    | none => s
    | some (.count n) => { s with nin := upd s.nin d (!b) n }
    | some (.packets _) => { s with bad := true }

/-- Exchange of the packets: to the right, core/mpi.c:492-511, or to the left, core/mpi.c:517-536. The first `nph_send` packets of the list are sent
and freed. Those received are put in front of `ph_tmp_recv` one by one. -/
def sendPackets (g : Grid K) (d : Fin 3) (b : Bool) (r : Rank g) : Instr (Rank g) (Post K T) (Msg K T) :=
  .xchg (nbr g d b r) (nbr g d (!b) r) 0 (fun s => .packets ((s.out d b).take (s.nout d b))) fun s m =>
    let s1 := { s with out := upd s.out d b ((s.out d b).drop (s.nout d b)), bad := s.bad || decide ((s.out d b).length < s.nout d b) }
    match m with
    | none => { s1 with bad := s1.bad || decide (s.nin d (!b) ≠ 0) }
    | some (.packets l) => { s1 with tmp := l.reverse ++ s1.tmp, bad := s1.bad || decide (l.length ≠ s.nin d (!b)) }
    | some (.count _) => { s1 with bad := true }

/-- One pass of the loop over `ph_tmp_recv`, core/mpi.c:539-562. -/
def forwardOne (g : Grid K) (d : Fin 3) (r : Rank g) (s : Post K T) (p : Ph K T) : Post K T :=
  match slotFrom g r (d + 1) p.x with
  | .send e b => push s e b (wrap g true p)
  | .done => { s with kept := wrap g true p :: s.kept, nkept := s.nkept + 1 }

/-- core/mpi.c:539-562. -/
def forwardAll (g : Grid K) (d : Fin 3) (r : Rank g) (s : Post K T) : Post K T := s.tmp.foldl (forwardOne g d r) { s with tmp := [] }

/-- One direction, core/mpi.c:477-563. -/
def direction (g : Grid K) (d : Fin 3) : List (Rank g → Instr (Rank g) (Post K T) (Msg K T)) :=
  [sendCount g d true, sendPackets g d true, sendCount g d false, sendPackets g d false, fun r => .comp (forwardAll g d r)]

/-- core/mpi.c:565-566. -/
def countIn (s : Post K T) : Post K T := { s with rcvd := s.rcvd + s.nkept, tot := s.tot + s.nkept }

/-- `sync_mpi_photons`, core/mpi.c:437-566, instruction by instruction. -/
def exchange (g : Grid K) : List (Rank g → Instr (Rank g) (Post K T) (Msg K T)) :=
  [fun r => .comp (sortAll g r)] ++ direction g 0 ++ direction g 1 ++ direction g 2 ++ [fun _ => .comp countIn]

/-- The program of a rank. -/
def exchangeProg (g : Grid K) : Prog (Rank g) (Post K T) (Msg K T) := fun r => (exchange g).map fun I => I r

end Nubhlight.PhotonMessages
