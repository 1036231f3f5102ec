import Verif.Model.Bounds

set_option autoImplicit false

/-!
# Model of the ghost-zone reductions `sync_radG`, `sync_Jrad`, `sync_radtype_vec`, core/mpi.c:277-435

All ranks together, as in `Verif.Model.Bounds`. Values are taken in an additive monoid (one component of one array).
The receive buffers are zero before every reduction: they are cleared at the start (core/mpi.c:286,325,383) and by the
reduction itself (core/mpi.c:281), so a message that is not received contributes zero. For `radG` the initial `memset`
covers only `NDIM` of the `NDIM+NRADCOMP` components; the rest of the buffer is zero because it is static and always
cleared by the reduction.
-/

namespace Nubhlight.RadSync
open Nubhlight.Bounds

variable {V : Type*} [AddCommMonoid V]

/-- `NGR`, core/mpi.c:20. -/
def NGR : ℤ := 1

/-- Storage indices `NG-NGR .. N+NG+NGR-1` that take part. -/
def ext (d : Dim) (i : ℤ) : Prop := NG - NGR ≤ i ∧ i < d.N + NG + NGR

instance (d : Dim) (i : ℤ) : Decidable (ext d i) := by unfold ext; infer_instance

/-- What is in the receive buffer after both exchanges of a direction. First the left neighbour's storage `N+NG..` arrives at `NG..`
(core/mpi.c:291-293,299-301,307-309), then the right neighbour's storage `NG-NGR..` at `N+NG-NGR..` (core/mpi.c:294-296,302-304,310-312). With one
zone per rank these are the same place and the second message overwrites the first. Nothing is written where there is no neighbour. -/
def received (d : Dim) (a : ℤ → ℤ → V) (c i : ℤ) : V :=
  match (if d.N + NG - NGR ≤ i ∧ i < d.N + NG then d.rightOf c else none) with
  | some c' => a c' (i - d.N)
  | none =>
    match (if NG ≤ i ∧ i < NG + NGR then d.leftOf c else none) with
    | some c' => a c' (d.N + i)
    | none => 0

/-- Both exchanges in one direction and the reduction, core/mpi.c:291-297. -/
def gather (d : Dim) (a : ℤ → ℤ → V) (c i : ℤ) : V := a c i + received d a c i

/-- `sync_radG`, core/mpi.c:285-314; also the first part of `sync_Jrad` and `sync_radtype_vec`. -/
def syncAdd (d1 d2 d3 : Dim) (W : World V) : World V :=
  let W1 : World V := fun c1 c2 c3 i j k =>
    if ext d2 j ∧ ext d3 k then gather d1 (fun c i => W c c2 c3 i j k) c1 i else W c1 c2 c3 i j k
  let W2 : World V := fun c1 c2 c3 i j k =>
    if ext d1 i ∧ ext d3 k then gather d2 (fun c j => W1 c1 c c3 i j k) c2 j else W1 c1 c2 c3 i j k
  fun c1 c2 c3 i j k =>
    if ext d1 i ∧ ext d2 j then gather d3 (fun c k => W2 c1 c2 c i j k) c3 k else W2 c1 c2 c3 i j k

/-- `sync_Jrad`, `sync_radtype_vec`, core/mpi.c:324-371,382-435: the same followed by clearing all ghost zones. -/
def syncClear (d1 d2 d3 : Dim) (W : World V) : World V := fun c1 c2 c3 i j k =>
  if act d1 i ∧ act d2 j ∧ act d3 k then syncAdd d1 d2 d3 W c1 c2 c3 i j k
  else if all d1 i ∧ all d2 j ∧ all d3 k then 0 else syncAdd d1 d2 d3 W c1 c2 c3 i j k

/-- Storage index at which a contribution is deposited: with one zone per rank that zone, wherever the packet is, core/interact.c:484-490, 629-635. -/
def place (d : Dim) (i : ℤ) : ℤ := if d.N = 1 then NG else i

/-- Addition of `x` to zone `(i,j,k)` of the rank at `(c1,c2,c3)`, core/interact.c:484-496, 629-642. -/
def deposit (d1 d2 d3 : Dim) (W : World V) (c1 c2 c3 i j k : ℤ) (x : V) : World V := fun e1 e2 e3 u v w =>
  if (e1 = c1 ∧ e2 = c2 ∧ e3 = c3) ∧ u = place d1 i ∧ v = place d2 j ∧ w = place d3 k then W e1 e2 e3 u v w + x else W e1 e2 e3 u v w

end Nubhlight.RadSync
