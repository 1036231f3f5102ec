import Mathlib.Algebra.Order.Field.Basic
import Mathlib.Algebra.Order.Ring.Rat
import Mathlib.Data.List.Basic
import Mathlib.Tactic.NormNum

set_option autoImplicit false

/-!
# The times in a packet's stored history

Sources: core/make_superphotons.c:180-220, core/push_superphotons.c:77-145, core/rad_utils.c:429-476 and 532-555, core/interact.c:165-691,
core/bounds.c:375-406, core/oscillations.c:79, core/step.c:64-132, core/rad_utils.c:572-611.

Only the coordinate times of the three stored states are kept; a state never written is `none` (the code has zeros there). Exact arithmetic;
the relative window of `1e-50` in core/rad_utils.c:443,451, which is lost in double precision, is left out. A push advances the time by
exactly the requested amount (`C41_time`). The length of a push and the times of interactions are inputs. Packets that fail, leave the grid
or are absorbed are left out of what follows: they only shorten the list.
-/

namespace Nubhlight.History

variable {K : Type*} [Field K] [LinearOrder K]

/-- `X[0][0]`, `X[1][0]`, `X[2][0]` and `type == TYPE_TRACER`. -/
structure Hist (K : Type*) where
  T0 : Option K
  T1 : Option K
  T2 : K
  tracer : Bool
deriving DecidableEq

/-- Outcome of asking for a state: interpolated between two stored states around the time, the stop at core/rad_utils.c:459-475, a state
never written is used, or the time is before the older of the two states used. -/
inductive Look
  | ok
  | stop
  | unset
  | before
deriving DecidableEq

/-- `get_X_K_interp`, core/rad_utils.c:433-476: which states are used for time `s`. An unwritten middle state has time zero, so a positive
`s` is not before it. -/
def look (h : Hist K) (s : K) : Look :=
  if s = h.T2 then .ok
  else match h.T1 with
    | none => if s ≤ h.T2 then .unset else .stop
    | some a =>
      if s < a then
        match h.T0 with
        | none => .unset
        | some b => if b ≤ s then .ok else .before
      else if s ≤ h.T2 then .ok else .stop

/-- `push_superphoton`, core/push_superphotons.c:77-92: the history moves up by one and the newest state advances by `d`. -/
def shift (h : Hist K) (d : K) : Hist K := ⟨h.T1, some h.T2, h.T2 + d, h.tracer⟩

/-- `to_be_pushed`, core/rad_utils.c:533-545. -/
def toBePushed (t dt : K) (h : Hist K) : Bool := h.tracer || decide (h.T2 < t + dt)

/-- `get_dtpush`, core/rad_utils.c:548-555; `l` is `cour * dt_light` of the packet's zone. -/
def dtPush (l dt : K) (h : Hist K) : K := if h.tracer then dt else max l dt

/-- One packet in `push_superphotons`, core/push_superphotons.c:110-135. -/
def push (t dt l : K) (h : Hist K) : Hist K := if toBePushed t dt h then shift h (dtPush l dt h) else h

/-- A new packet, core/make_superphotons.c:180-188: `coord` sets the time to `t` (core/coord.c:41), the older states are zero. -/
def made (t : K) : Hist K := ⟨none, none, t, false⟩

/-- A packet scattered at `ts`, core/interact.c:587-597 and 663: it starts with one state and is pushed once, by `l = cour * dt_light`
without comparison with `dt`. -/
def scattered (ts l : K) : Hist K := shift ⟨none, none, ts, false⟩ l

/-- Inputs of one step: the step size, how many packets are emitted, the push length of each packet by its position in the list, and for
each packet in the list during `interact` the times and push lengths of its scatterings. -/
structure In (K : Type*) where
  dt : K
  nmade : ℕ
  len : ℕ → K
  scat : ℕ → List (K × K)

/-- The packets present before interactions: new ones in front (core/make_superphotons.c:68-71), then all are pushed. -/
def pushed (t : K) (i : In K) (l : List (Hist K)) : List (Hist K) :=
  (List.replicate i.nmade (made t) ++ l).mapIdx fun n h => push t i.dt (i.len n) h

/-- One step, core/step.c:64-132, on the times of the packets of a rank. Scattered packets follow the packet they come from. -/
def step (t : K) (l : List (Hist K)) (i : In K) : K × List (Hist K) :=
  (t + i.dt, ((pushed t i l).mapIdx fun n h => h :: (i.scat n).map fun p => scattered p.1 p.2).flatten)

/-- A history of steps. -/
def run : K × List (Hist K) → List (In K) → K × List (Hist K)
  | s, [] => s
  | s, i :: l => run (step s.1 s.2 i) l

end Nubhlight.History
