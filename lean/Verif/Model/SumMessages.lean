import Verif.Model.Messages
import Verif.Model.RadSync

set_option autoImplicit false

/-!
# The sums over ghost zones as run by a rank with messages: `sync_radG`, `sync_Jrad`, `sync_radtype_vec`, core/mpi.c:276-435

One component of one array and of its receive buffer (`radG`, `Jrad` and vectors over types have the components as a further index; every loop,
message and `memset` does the same for all of them, except the `memset` of `radG_buf`, see `wipedG`).
-/

namespace Nubhlight.SumMessages
open Nubhlight.Bounds Nubhlight.RadSync Nubhlight.Messages

variable {V : Type*} [AddCommMonoid V]

/-- An array over the stored zones of a rank. -/
abbrev Arr (V : Type*) := ℤ → ℤ → ℤ → V

/-- The array and its receive buffer, core/decs.h `radG`, `radG_buf` and so on. -/
structure Mem (V : Type*) where
  arr : Arr V
  buf : Arr V

/-- The zones of a message, core/mpi.c:124-178: `NGR` deep along direction `d`, starting at `a`; across it from `NG-NGR` on, `N+2*NGR` zones. -/
def sheet (d1 d2 d3 : Dim) : Fin 3 → ℤ → ℤ → ℤ → ℤ → Bool
  | 0, a, i, j, k => decide ((a ≤ i ∧ i < a + NGR) ∧ ext d2 j ∧ ext d3 k)
  | 1, a, i, j, k => decide ((a ≤ j ∧ j < a + NGR) ∧ ext d1 i ∧ ext d3 k)
  | 2, a, i, j, k => decide ((a ≤ k ∧ k < a + NGR) ∧ ext d1 i ∧ ext d2 j)

/-- Array displaced along a direction. -/
def moved (Y : Arr V) : Fin 3 → ℤ → Arr V
  | 0, a => fun i j k => Y (i + a) j k
  | 1, a => fun i j k => Y i (j + a) k
  | 2, a => fun i j k => Y i j (k + a)

/-- One `Sendrecv`, core/mpi.c:291-296, 299-304, 307-312 (and 329-350, 387-414): from the array into the buffer. First (`upper` false) the zones from
`N+NG` on go to the right neighbour, which stores them from `NG` on; then those from `NG-NGR` on to the left neighbour, which stores them from
`N+NG-NGR` on. Tags 0 to 5. -/
def swap (d1 d2 d3 : Dim) (d : Fin 3) (upper : Bool) (r : Ranks d1 d2 d3) : Instr (Ranks d1 d2 d3) (Mem V) (Arr V) :=
  let n := size d1 d2 d3 d
  .xchg (if upper then left d1 d2 d3 d r else right d1 d2 d3 d r) (if upper then right d1 d2 d3 d r else left d1 d2 d3 d r)
    (2 * d.val + if upper then 1 else 0) Mem.arr fun m x =>
      match x with
      | none => m
      | some Y => ⟨m.arr, fun i j k =>
          if sheet d1 d2 d3 d (if upper then n + NG - NGR else NG) i j k then moved Y d (if upper then -n else n) i j k else m.buf i j k⟩

/-- `reduce_radG_buf`, core/mpi.c:277-284; `reduce_Jrad_buf`, 316-323; `reduce_radtype_buf`, 373-380. -/
def reduce (d1 d2 d3 : Dim) (m : Mem V) : Mem V where
  arr := fun i j k => if ext d1 i ∧ ext d2 j ∧ ext d3 k then m.arr i j k + m.buf i j k else m.arr i j k
  buf := fun i j k => if ext d1 i ∧ ext d2 j ∧ ext d3 k then 0 else m.buf i j k

/-- The `memset` at the start, core/mpi.c:286-287, 325, 383, on the zones of the buffer in `w`. -/
def wipe (w : ℤ → ℤ → ℤ → Bool) (m : Mem V) : Mem V := { m with buf := fun i j k => if w i j k then 0 else m.buf i j k }

/-- What the `memset` of `Jrad_buf` and `radtype_buf` clears, core/mpi.c:325, 383. -/
def wipedAll (_ _ _ : ℤ) : Bool := true

/-- What the `memset` of `radG_buf` clears of component `mu` of `ncomp` (`NDIM+NRADCOMP`), core/mpi.c:286-287: the length is that of an array with
`NDIM` components. -/
def wipedG (d1 d2 d3 : Dim) (ncomp mu : ℤ) (i j k : ℤ) : Bool :=
  decide (((i * (d2.N + 2 * NG) + j) * (d3.N + 2 * NG) + k) * ncomp + mu < (d1.N + 2 * NG) * (d2.N + 2 * NG) * (d3.N + 2 * NG) * 4)

/-- One direction: two exchanges, reduction. -/
def direction (d1 d2 d3 : Dim) (d : Fin 3) : List (Ranks d1 d2 d3 → Instr (Ranks d1 d2 d3) (Mem V) (Arr V)) :=
  [swap d1 d2 d3 d false, swap d1 d2 d3 d true, fun _ => .comp (reduce d1 d2 d3)]

/-- `sync_radG`, core/mpi.c:285-314. -/
def sum (d1 d2 d3 : Dim) (w : ℤ → ℤ → ℤ → Bool) : List (Ranks d1 d2 d3 → Instr (Ranks d1 d2 d3) (Mem V) (Arr V)) :=
  [fun _ => .comp (wipe w)] ++ direction d1 d2 d3 0 ++ direction d1 d2 d3 1 ++ direction d1 d2 d3 2

/-- The six loops that clear ghost zones, core/mpi.c:353-370, 417-434. -/
def clear (d1 d2 d3 : Dim) (m : Mem V) : Mem V := { m with arr := fun i j k =>
  if ((0 ≤ i ∧ i < NG) ∧ all d2 j ∧ all d3 k) ∨ ((d1.N + NG ≤ i ∧ i < d1.N + 2 * NG) ∧ all d2 j ∧ all d3 k) ∨
    ((0 ≤ j ∧ j < NG) ∧ all d1 i ∧ all d3 k) ∨ ((d2.N + NG ≤ j ∧ j < d2.N + 2 * NG) ∧ all d1 i ∧ all d3 k) ∨
    ((0 ≤ k ∧ k < NG) ∧ all d1 i ∧ all d2 j) ∨ ((d3.N + NG ≤ k ∧ k < d3.N + 2 * NG) ∧ all d1 i ∧ all d2 j) then 0 else m.arr i j k }

/-- `sync_Jrad`, core/mpi.c:324-371, and `sync_radtype_vec`, 382-435. -/
def sumClear (d1 d2 d3 : Dim) : List (Ranks d1 d2 d3 → Instr (Ranks d1 d2 d3) (Mem V) (Arr V)) :=
  sum d1 d2 d3 wipedAll ++ [fun _ => .comp (clear d1 d2 d3)]

/-- Ranks run a list of instructions common to all. -/
def prog {R σ M : Type*} (L : List (R → Instr R σ M)) : Prog R σ M := fun r => L.map fun I => I r

/-- `sync_radG` step after step: `f` is what the rank (given its coordinates) does to the array in between (reset at the end of a step, deposits of the next). -/
def sums (d1 d2 d3 : Dim) (w : ℤ → ℤ → ℤ → Bool) (fs : List (ℤ → ℤ → ℤ → Arr V → Arr V)) : List (Ranks d1 d2 d3 → Instr (Ranks d1 d2 d3) (Mem V) (Arr V)) :=
  fs.flatMap fun f => [fun r => .comp fun m => { m with arr := f r.1 r.2.1 r.2.2 m.arr }] ++ sum d1 d2 d3 w

end Nubhlight.SumMessages
