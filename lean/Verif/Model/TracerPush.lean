import Verif.Model.Tracers
import Verif.Model.Decomp
import Verif.Model.Fluid
import Verif.Model.PhotonList

set_option autoImplicit false

/-!
# Motion and removal of tracer particles

core/tracers.c:112-181, 242-280, 400-422 and core/push_superphotons.c:41-46, 60-61, 77-92. Real numbers replace floating point. The metric is that of `set_metric` at
a position and does not depend on time (the time component of the position handed to it is not set in the corrector, core/tracers.c:128, 136). Reading
outside the stored zones and a failed velocity (core/phys.c:138-151) are `none`.
-/

namespace Nubhlight.TracerPush

open Decomp Fluid

/-- What a tracer needs to know of the grid of its rank: axes, first global zone, number of zones. -/
structure Grid where
  ax : Fin 3 → Axis ℝ
  gs : Fin 3 → ℕ
  n : Fin 3 → ℕ

/-- The primitive variables of the stored zones of the rank (`grid_prim_type`). -/
abbrev PrimArr := ℤ → ℤ → ℤ → Prim

/-- `Xtoijk`, core/rad_utils.c:386-390. -/
noncomputable def zoneOf (g : Grid) (X : Fin 3 → ℝ) (d : Fin 3) : ℤ := indexOf (g.ax d) (g.gs d) (X d)

/-- All zones of the stencil are stored, core/tracers.c:92-104. -/
def Stored (g : Grid) (X : Fin 3 → ℝ) : Prop := ∀ d, 1 ≤ zoneOf g X d ∧ zoneOf g X d + 1 < g.n d + 2 * (NG : ℤ)

open Classical in
/-- `lagrange_interp_prim_3d`, core/tracers.c:112-115 with 79-110. -/
noncomputable def interpPrim (g : Grid) (P : PrimArr) (X : Fin 3 → ℝ) : Option Prim :=
  if Stored g X then
    some fun ip => Tracers.interp3 (fun d => Tracers.node (g.ax d).startx (g.ax d).dx (g.gs d) (zoneOf g X d)) X
      fun a b c => P (zoneOf g X 0 - 1 + a) (zoneOf g X 1 - 1 + b) (zoneOf g X 2 - 1 + c) ip
  else none

/-- `tracer_rhs`, core/tracers.c:169-181: the velocity and the state `q`. -/
noncomputable def tracerRhs (g : Grid) (met : (Fin 3 → ℝ) → Geom) (P : PrimArr) (X : Fin 3 → ℝ) : Option ((Fin 3 → ℝ) × State) :=
  (interpPrim g P X).bind fun p =>
    if (mhdGamma p (met X)).2 then none
    else
      let q := getState p (met X)
      some (fun i => q.ucon i.succ / q.ucon 0, q)

/-- Time, position and the four-velocities stored with a tracer (`X[2]`, `Kcov[2]`, `Kcon[2]`). -/
structure Now where
  t : ℝ
  X : Fin 3 → ℝ
  ucov : V4
  ucon : V4

/-- `push_tracers`, core/tracers.c:124-150. -/
noncomputable def pushTracer (g : Grid) (met : (Fin 3 → ℝ) → Geom) (P Ph : PrimArr) (dt : ℝ) (s : Now) : Option Now :=
  (tracerRhs g met P s.X).bind fun r1 =>
    let k : Fin 3 → ℝ := fun i => s.X i + 1 / 2 * dt * r1.1 i
    (tracerRhs g met Ph k).bind fun r2 =>
      let X : Fin 3 → ℝ := fun i => s.X i + dt * r2.1 i
      (tracerRhs g met Ph X).map fun r3 => ⟨s.t + dt, X, r3.2.ucov, r3.2.ucon⟩

/-- `push_X_K` for a tracer, core/push_superphotons.c:34-66: `good_push` is set after the first attempt, which has one piece. -/
noncomputable def pushXK (g : Grid) (met : (Fin 3 → ℝ) → Geom) (P Ph : PrimArr) (dt : ℝ) (s : Now) : Option Now :=
  (List.range (2 ^ 0)).foldlM (fun s _ => pushTracer g met P Ph (dt / 2 ^ 0) s) s

/-- `set_tracer`, core/tracers.c:242-272, position, time and velocity. -/
noncomputable def setTracer (g : Grid) (met : (Fin 3 → ℝ) → Geom) (P : PrimArr) (t : ℝ) (X : Fin 3 → ℝ) : Option Now :=
  (interpPrim g P X).bind fun p =>
    if (mhdGamma p (met X)).2 then none
    else some ⟨t, X, (getState p (met X)).ucov, (getState p (met X)).ucon⟩

/-- A tracer through several steps (core/step.c:69): the fluid at the beginning and in the middle of each, and its length. -/
noncomputable def track (g : Grid) (met : (Fin 3 → ℝ) → Geom) : List (PrimArr × PrimArr × ℝ) → Now → Option Now
  | [], s => some s
  | (P, Ph, dt) :: l, s => (pushXK g met P Ph dt s).bind (track g met l)

/-! ## Removal -/

open PhotonList

variable {V : Type*}

/-- State of the loop of `prune_tracers`, core/tracers.c:405-407. -/
structure Prune (V : Type*) where
  heap : Heap V
  ph : Option ℕ
  head : Option ℕ
  prev : Option ℕ

/-- One turn, core/tracers.c:409-418: `bad` is the mark `fixup_required` of the zone of the particle. -/
def pruneStep (isTracer bad : V → Bool) (s : Prune V) : Option (Prune V) :=
  s.ph.bind fun p => (s.heap p).bind fun c =>
    if isTracer c.val && bad c.val then
      (listRemove s.heap (some p) s.head s.prev).map fun (h', ph', head') => { s with heap := h', ph := ph', head := head' }
    else some { s with prev := some p, ph := c.next }

/-- The loop, core/tracers.c:408-419, with fuel. -/
def pruneLoop (isTracer bad : V → Bool) : ℕ → Prune V → Option (Prune V)
  | 0, s => if s.ph = none then some s else none
  | n + 1, s => if s.ph = none then some s else (pruneStep isTracer bad s).bind (pruneLoop isTracer bad n)

/-- `prune_tracers` for the list of a thread, core/tracers.c:405-420. Memory and new list. -/
def prune (isTracer bad : V → Bool) (fuel : ℕ) (h : Heap V) (list : Option ℕ) : Option (Heap V × Option ℕ) :=
  (pruneLoop isTracer bad fuel ⟨h, list, list, none⟩).map fun s => (s.heap, s.head)

/-- `fixup_required` after a call of `fixup` or `fixup_utoprim`, core/fixup.c:133-134: `floors z` holds where a floor exceeds the variable (core/fixup.c:133). The mark is
not taken back where it does not, and interpolation over neighbours (core/fixup.c:302-346) alone does not mark. -/
def fixupMark {Z : Type*} (m : Z → Bool) (floors : Z → Bool) : Z → Bool := fun z => if floors z then true else m z

/-- The marks `prune_tracers` sees in the last of several steps, and the marks after it: per step the calls core/step.c:53-54, 95-96, 109-110, then
core/step.c:123 and the reset core/step.c:128-129. -/
def stepMarks {Z : Type*} (m : Z → Bool) (calls : List (Z → Bool)) : (Z → Bool) × (Z → Bool) := (calls.foldl fixupMark m, fun _ => false)

/-- The marks seen in each step of a run; `m` are the marks left by the steps before. -/
def runMarks {Z : Type*} : (Z → Bool) → List (List (Z → Bool)) → List (Z → Bool)
  | _, [] => []
  | m, c :: l => (stepMarks m c).1 :: runMarks (stepMarks m c).2 l

/-! ## Counts -/

/-- Particles of a rank around the end of a step, as lists: those pushed (core/push_superphotons.c:110-135), which of them `bound_superphotons` removes, sends
or receives, and the marks of zones. -/
structure StepEnd (V : Type*) where
  pushed : List V
  lost : V → Bool
  sent : V → Bool
  recv : List V
  bad : V → Bool

/-- `tracer_tot` of the rank after the step, core/push_superphotons.c:128-129 and core/bounds.c:393-394 (exchange and `prune_tracers` do not change it). -/
def tracerTot (isTracer : V → Bool) (e : StepEnd V) : ℤ :=
  e.pushed.countP isTracer - e.pushed.countP fun v => e.lost v && isTracer v

/-- Particles of the rank after the step. -/
def present (isTracer : V → Bool) (e : StepEnd V) : List V :=
  ((e.pushed.filter fun v => !e.lost v && !e.sent v) ++ e.recv).filter fun v => !(isTracer v && e.bad v)

end Nubhlight.TracerPush
