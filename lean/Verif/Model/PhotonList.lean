import Mathlib.Logic.Function.Basic
import Mathlib.Data.List.Basic
import Mathlib.Data.Int.Basic

set_option autoImplicit false

/-!
# Linked lists of superphotons

core/rad_utils.c (`list_remove`, `swap_ph`), core/bounds.c (`rad_mpi_transport`, the traversal of `bound_superphotons`) and the thread
distribution of core/mpi.c, at pointer level: a heap of cells, each with a value (the photon) and a `next` pointer. Dereferencing
`NULL` or freed memory is `none`.
-/

namespace Nubhlight.PhotonList

/-- `struct of_photon` split into its data and its `next` field, core/decs.h:574-593. -/
structure Cell (V : Type*) where
  val : V
  next : Option ℕ

/-- Memory: addresses to live cells. -/
abbrev Heap (V : Type*) := ℕ → Option (Cell V)

variable {V : Type*}

/-- `swap_ph(&donor, &recipient)`, core/rad_utils.c:558-570, for two different list heads. Returns memory, donor, recipient. -/
def swapPh (h : Heap V) (donor recipient : Option ℕ) : Option (Heap V × Option ℕ × Option ℕ) :=
  match recipient with
  | none => donor.bind fun p => (h p).bind fun c =>
      some (Function.update h p (some { c with next := none }), c.next, some p)
  | some r => donor.bind fun p => (h p).bind fun c =>
      some (Function.update h p (some { c with next := some r }), c.next, some p)

/-- Writing through `prev->next`. -/
def setNext (h : Heap V) (q : ℕ) (n : Option ℕ) : Option (Heap V) :=
  (h q).map fun c => Function.update h q (some { c with next := n })

/-- `list_remove(&ph, &head, &prev)`, core/rad_utils.c:170-181. Returns memory, `ph`, `head`. -/
def listRemove (h : Heap V) (ph head prev : Option ℕ) : Option (Heap V × Option ℕ × Option ℕ) :=
  match prev with
  | some q => ph.bind fun p => (h p).bind fun c => (setNext h q c.next).bind fun h1 =>
      let h2 := Function.update h1 p none
      (h2 q).map fun cq => (h2, cq.next, head)
  | none => ph.bind fun p => (h p).map fun c => (Function.update h p none, c.next, c.next)

/-- The list surgery of `rad_mpi_transport`, core/bounds.c:456-469: the photon becomes the head of the send list `mpi` and is unlinked.
Returns memory, `ph`, `head`, `mpi`. -/
def mpiUnlink (h : Heap V) (ph head prev mpi : Option ℕ) : Option (Heap V × Option ℕ × Option ℕ × Option ℕ) :=
  ph.bind fun p => (h p).bind fun c =>
    let next := c.next
    let h1 := Function.update h p (some { c with next := mpi })
    match prev with
    | some q => (setNext h1 q next).bind fun h2 => (h2 q).map fun cq => (h2, cq.next, head, some p)
    | none => some (h1, next, next, some p)

/-- What the body of the traversal decides for a photon. -/
inductive Act
  | keep
  | send
  | lose
  deriving DecidableEq

/-- State of the traversal, core/bounds.c:369-373, with the counters `step_lost_local`, `step_tot_local`, `tracer_tot_local`, `n_to_send`. -/
structure Trav (V : Type*) where
  heap : Heap V
  ph : Option ℕ
  head : Option ℕ
  prev : Option ℕ
  mpi : Option ℕ
  lost : ℤ
  tot : ℤ
  tracer : ℤ
  nsend : ℤ

/-- One turn of the loop, core/bounds.c:375-406: `upd` is the change `bound_rad_transport` makes to the photon, `act` the decision
(which the code takes from the position before the change, the weight and the energy), `isTracer` the type test. -/
def travStep (upd : V → V) (act : V → Act) (isTracer : V → Bool) (s : Trav V) : Option (Trav V) :=
  s.ph.bind fun p => (s.heap p).bind fun c =>
    let h := Function.update s.heap p (some { c with val := upd c.val })
    match act c.val with
    | .lose =>
        (listRemove h (some p) s.head s.prev).map fun (h', ph', head') =>
          { s with heap := h', ph := ph', head := head', lost := s.lost + 1, tot := s.tot - 1
                   tracer := if isTracer c.val then s.tracer - 1 else s.tracer }
    | .send =>
        (mpiUnlink h (some p) s.head s.prev s.mpi).map fun (h', ph', head', mpi') =>
          { s with heap := h', ph := ph', head := head', mpi := mpi', nsend := s.nsend + 1 }
    | .keep => some { s with heap := h, prev := some p, ph := c.next }

/-- The loop `while (ph != NULL)`, core/bounds.c:375-406, with fuel; running out of fuel is `none`. -/
def trav (upd : V → V) (act : V → Act) (isTracer : V → Bool) : ℕ → Trav V → Option (Trav V)
  | 0, s => if s.ph = none then some s else none
  | n + 1, s => if s.ph = none then some s else (travStep upd act isTracer s).bind (trav upd act isTracer n)

/-- Start of the traversal of one thread's list, core/bounds.c:371-373. -/
def travInit (h : Heap V) (list mpi : Option ℕ) : Trav V := ⟨h, list, list, none, mpi, 0, 0, 0, 0⟩

/-- Moving a whole list with `swap_ph`, core/bounds.c:419-422, with fuel. Returns memory and recipient. -/
def drain : ℕ → Heap V → Option ℕ → Option ℕ → Option (Heap V × Option ℕ)
  | 0, h, donor, rec => if donor = none then some (h, rec) else none
  | n + 1, h, donor, rec =>
      if donor = none then some (h, rec) else (swapPh h donor rec).bind fun (h', d', r') => drain n h' d' r'

/-! ## Distribution over threads -/

/-- The inner loop core/mpi.c:578-581 at list level (`swap_ph` moves a head): at most `k` photons move from `recv` to a thread's list. -/
def give {P : Type*} : ℕ → List P → List P → List P × List P
  | 0, recv, l => (recv, l)
  | _ + 1, [], l => ([], l)
  | k + 1, p :: recv, l => give k recv (p :: l)

/-- `ph_per_thread`, core/mpi.c:570-573. -/
def perThread (nrecv T : ℕ) : ℕ := if nrecv / T * T < nrecv then nrecv / T + 1 else nrecv / T

/-- core/mpi.c:574-582: threads `start, start+1, ...` modulo `T`, one each. Returns what is left and the lists. -/
def distribute {P : Type*} (T start k : ℕ) : ℕ → List P → (ℕ → List P) → List P × (ℕ → List P)
  | 0, recv, lists => (recv, lists)
  | n + 1, recv, lists =>
      let r := distribute T start k n recv lists
      let i := (start + n) % T
      let g := give k r.1 (r.2 i)
      (g.1, Function.update r.2 i g.2)

/-- The whole distribution, core/mpi.c:569-582; `start` is `(int)(get_rand() * nthreads)`. -/
def spread {P : Type*} (T start : ℕ) (recv : List P) (lists : ℕ → List P) : List P × (ℕ → List P) :=
  distribute T start (perThread recv.length T) T recv lists

end Nubhlight.PhotonList
