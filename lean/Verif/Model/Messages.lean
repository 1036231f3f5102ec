import Verif.Model.Bounds
import Mathlib.Data.Fintype.Prod
import Mathlib.Data.Fin.Basic
import Mathlib.Order.Fin.Basic

set_option autoImplicit false

/-!
# Ranks that exchange messages

Every rank runs its own list of instructions: computations, `MPI_Sendrecv` and collective operations. Ranks run at their own pace and any
interleaving is allowed. A message may be buffered by the library as soon as it is sent, or be handed over only when both sides have posted
it (the standard leaves the choice to the library at every send); messages between two ranks with one tag arrive in the order sent.
A collective operation is left when all ranks have entered one of the same kind (the strictest behaviour the standard allows).

Used for core/mpi.c:216-274 with core/bounds.c:13-247 (`bound_prim`), and for the barriers of the timers, core/timing.c:26-44, which are
collective operations within `fixup` and `fixup_utoprim` (core/fixup.c:15-20, 264-359).
-/

namespace Nubhlight.Messages

variable {R σ M : Type*}

/-- An instruction of a rank. `σ` is all its memory. `xchg` is `MPI_Sendrecv`: destination, source (`none` is `MPI_PROC_NULL`), tag, what is sent and what
is made of what is received. `coll` is a collective operation of a kind. -/
inductive Instr (R σ M : Type*) where
  | comp (f : σ → σ)
  | xchg (dst src : Option R) (tag : ℕ) (pay : σ → M) (store : σ → Option M → σ)
  | coll (kind : ℕ) (f : (R → σ) → σ)

/-- A list of instructions for every rank. -/
abbrev Prog (R σ M : Type*) := R → List (Instr R σ M)

/-- Where all ranks are: instruction, what is done of a `Sendrecv`, what it received, memory; messages under way by sender, receiver and tag. -/
structure St (R σ M : Type*) where
  pc : R → ℕ
  snd : R → Bool
  rcv : R → Bool
  box : R → Option M
  loc : R → σ
  chan : R → R → ℕ → List M

variable [DecidableEq R]

/-- Before the first instruction. -/
def start (W : R → σ) : St R σ M := ⟨fun _ => 0, fun _ => false, fun _ => false, fun _ => none, W, fun _ _ _ => []⟩

/-- A rank leaves its instruction with new memory. -/
def St.leave (s : St R σ M) (r : R) (x : σ) : St R σ M :=
  { s with pc := Function.update s.pc r (s.pc r + 1), snd := Function.update s.snd r false, rcv := Function.update s.rcv r false,
           box := Function.update s.box r none, loc := Function.update s.loc r x }

/-- What can happen next. The label says whether the library had to buffer a message. -/
inductive Step (P : Prog R σ M) : Bool → St R σ M → St R σ M → Prop
  | comp (s : St R σ M) (r : R) (f : σ → σ) (h : (P r)[s.pc r]? = some (.comp f)) : Step P false s (s.leave r (f (s.loc r)))
  | buffer (s : St R σ M) (r d : R) (src : Option R) (tag : ℕ) (pay : σ → M) (store : σ → Option M → σ)
      (h : (P r)[s.pc r]? = some (.xchg (some d) src tag pay store)) (hs : s.snd r = false) :
      Step P true s { s with snd := Function.update s.snd r true,
                             chan := fun a b t => if a = r ∧ b = d ∧ t = tag then s.chan a b t ++ [pay (s.loc r)] else s.chan a b t }
  | recv (s : St R σ M) (r o : R) (dst : Option R) (tag : ℕ) (pay : σ → M) (store : σ → Option M → σ) (m : M) (l : List M)
      (h : (P r)[s.pc r]? = some (.xchg dst (some o) tag pay store)) (hr : s.rcv r = false) (hm : s.chan o r tag = m :: l) :
      Step P false s { s with rcv := Function.update s.rcv r true, box := Function.update s.box r (some m),
                              chan := fun a b t => if a = o ∧ b = r ∧ t = tag then l else s.chan a b t }
  | pass (s : St R σ M) (a b : R) (src dst : Option R) (tag : ℕ) (pay pay' : σ → M) (store store' : σ → Option M → σ)
      (ha : (P a)[s.pc a]? = some (.xchg (some b) src tag pay store)) (hb : (P b)[s.pc b]? = some (.xchg dst (some a) tag pay' store'))
      (hs : s.snd a = false) (hr : s.rcv b = false) (hc : s.chan a b tag = []) :
      Step P false s { s with snd := Function.update s.snd a true, rcv := Function.update s.rcv b true,
                              box := Function.update s.box b (some (pay (s.loc a))) }
  | finish (s : St R σ M) (r : R) (dst src : Option R) (tag : ℕ) (pay : σ → M) (store : σ → Option M → σ)
      (h : (P r)[s.pc r]? = some (.xchg dst src tag pay store)) (hs : dst = none ∨ s.snd r = true) (hr : src = none ∨ s.rcv r = true) :
      Step P false s (s.leave r (store (s.loc r) (s.box r)))
  | coll (s : St R σ M) (kind : ℕ) (f : R → (R → σ) → σ) (h : ∀ r, (P r)[s.pc r]? = some (.coll kind (f r))) :
      Step P false s { s with pc := fun r => s.pc r + 1, loc := fun r => f r s.loc }

/-- States that can come about. -/
inductive Reach (P : Prog R σ M) (W : R → σ) : St R σ M → Prop
  | start : Reach P W (start W)
  | step (b : Bool) (s s' : St R σ M) (h : Reach P W s) (hs : Step P b s s') : Reach P W s'

/-! ## The ranks of the code -/

open Bounds

/-- Ranks by their Cartesian coordinates. -/
abbrev Ranks (d1 d2 d3 : Dim) := Fin d1.C.toNat × Fin d2.C.toNat × Fin d3.C.toNat

/-- Coordinate of a neighbour in one direction as a rank coordinate. -/
def toFin (d : Dim) : Option ℤ → Option (Fin d.C.toNat)
  | none => none
  | some c => if h : 0 ≤ c ∧ c < d.C then some ⟨c.toNat, by omega⟩ else none

/-- `neighbors[2][1][1]` and so on, core/mpi.c:51-72. -/
def right (d1 d2 d3 : Dim) : Fin 3 → Ranks d1 d2 d3 → Option (Ranks d1 d2 d3)
  | 0, r => (toFin d1 (d1.rightOf r.1)).map fun c => (c, r.2)
  | 1, r => (toFin d2 (d2.rightOf r.2.1)).map fun c => (r.1, c, r.2.2)
  | 2, r => (toFin d3 (d3.rightOf r.2.2)).map fun c => (r.1, r.2.1, c)

/-- `neighbors[0][1][1]` and so on, core/mpi.c:51-72. -/
def left (d1 d2 d3 : Dim) : Fin 3 → Ranks d1 d2 d3 → Option (Ranks d1 d2 d3)
  | 0, r => (toFin d1 (d1.leftOf r.1)).map fun c => (c, r.2)
  | 1, r => (toFin d2 (d2.leftOf r.2.1)).map fun c => (r.1, c, r.2.2)
  | 2, r => (toFin d3 (d3.leftOf r.2.2)).map fun c => (r.1, r.2.1, c)

/-- `mpi_barrier`. -/
def barrier (r : R) : Instr R σ M := .coll 0 fun W => W r

/-- Zones of a rank: arrays `P` and `pflag`, by storage index. -/
abbrev Zones (K : Type*) := ℤ → ℤ → ℤ → Cell K

variable {K : Type*}

/-- The zones of a face, core/mpi.c:81-117: `NG` deep along direction `d`, starting at `a`; across it active zones in directions not done yet, all zones
in those done. -/
def face (d1 d2 d3 : Dim) : Fin 3 → ℤ → ℤ → ℤ → ℤ → Bool
  | 0, a, i, j, k => decide ((a ≤ i ∧ i < a + NG) ∧ act d2 j ∧ act d3 k)
  | 1, a, i, j, k => decide ((a ≤ j ∧ j < a + NG) ∧ all d1 i ∧ act d3 k)
  | 2, a, i, j, k => decide ((a ≤ k ∧ k < a + NG) ∧ all d1 i ∧ all d2 j)

/-- Zone displaced along a direction. -/
def shifted (Z : Zones K) : Fin 3 → ℤ → ℤ → ℤ → ℤ → Cell K
  | 0, a, i, j, k => Z (i + a) j k
  | 1, a, i, j, k => Z i (j + a) k
  | 2, a, i, j, k => Z i j (k + a)

/-- Zones per rank in a direction. -/
def size (d1 d2 d3 : Dim) : Fin 3 → ℤ
  | 0 => d1.N
  | 1 => d2.N
  | 2 => d3.N

/-- One of the two `Sendrecv` of `sync_mpi_boundaries_X?L` and `..R`, core/mpi.c:216-274: `prims` first, then flags. The message is the array; what the
receiver takes from it are the zones of the face. Lower side: the zones from `N` on go to the right neighbour, tags 0, 2, 4. Upper
side: the zones from `NG` on go to the left neighbour, tags 1, 3, 5. -/
def sync (d1 d2 d3 : Dim) (d : Fin 3) (upper prims : Bool) (r : Ranks d1 d2 d3) : Instr (Ranks d1 d2 d3) (Zones K) (Zones K) :=
  let n := size d1 d2 d3 d
  .xchg (if upper then left d1 d2 d3 d r else right d1 d2 d3 d r) (if upper then right d1 d2 d3 d r else left d1 d2 d3 d r)
    (2 * d.val + if upper then 1 else 0) id fun Z m =>
      match m with
      | none => Z
      | some Y => fun i j k =>
        if face d1 d2 d3 d (if upper then n + NG else 0) i j k then
          let v := shifted Y d (if upper then -n else n) i j k
          if prims then ⟨v.prim, (Z i j k).pflag⟩ else ⟨(Z i j k).prim, v.pflag⟩
        else Z i j k

/-- Loop over the ghost zones of one side on ranks at that side, core/bounds.c:16-45 and so on: `fill` makes the zone from the rank's coordinates, the
zones of the line and the index. -/
def fillSide (d1 d2 d3 : Dim) (d : Fin 3) (upper : Bool) (fill : ℤ → ℤ → (ℤ → Cell K) → ℤ → Cell K) (r : Ranks d1 d2 d3) (Z : Zones K) : Zones K :=
  fun i j k => match d with
    | 0 => if (if upper then (r.1 : ℤ) = d1.C - 1 else (r.1 : ℤ) = 0) ∧ face d1 d2 d3 0 (if upper then d1.N + NG else 0) i j k then
        fill (glob d2 r.2.1 j) (glob d3 r.2.2 k) (fun i => Z i j k) i else Z i j k
    | 1 => if (if upper then (r.2.1 : ℤ) = d2.C - 1 else (r.2.1 : ℤ) = 0) ∧ face d1 d2 d3 1 (if upper then d2.N + NG else 0) i j k then
        fill (glob d1 r.1 i) (glob d3 r.2.2 k) (fun j => Z i j k) j else Z i j k
    | 2 => if (if upper then (r.2.2 : ℤ) = d3.C - 1 else (r.2.2 : ℤ) = 0) ∧ face d1 d2 d3 2 (if upper then d3.N + NG else 0) i j k then
        fill (glob d1 r.1 i) (glob d2 r.2.1 j) (fun k => Z i j k) k else Z i j k

/-- One side of one direction: fill, exchange. -/
def side (d1 d2 d3 : Dim) (d : Fin 3) (upper : Bool) (fill : ℤ → ℤ → (ℤ → Cell K) → ℤ → Cell K) (r : Ranks d1 d2 d3) :
    List (Instr (Ranks d1 d2 d3) (Zones K) (Zones K)) :=
  [.comp (fillSide d1 d2 d3 d upper fill r), sync d1 d2 d3 d upper true r, sync d1 d2 d3 d upper false r]

/-- `bound_prim` as run by a rank, core/bounds.c:13-247; the six fills as in `Bounds`, `chk` are the inflow checks at the end. -/
def boundProg (d1 d2 d3 : Dim) (fill : Fin 3 → Bool → ℤ → ℤ → (ℤ → Cell K) → ℤ → Cell K) (chk : Ranks d1 d2 d3 → Zones K → Zones K) :
    Prog (Ranks d1 d2 d3) (Zones K) (Zones K) := fun r =>
  [barrier r] ++ side d1 d2 d3 0 false (fill 0 false) r ++ side d1 d2 d3 0 true (fill 0 true) r ++ side d1 d2 d3 1 false (fill 1 false) r
    ++ side d1 d2 d3 1 true (fill 1 true) r ++ side d1 d2 d3 2 false (fill 2 false) r ++ side d1 d2 d3 2 true (fill 2 true) r
    ++ [.comp (chk r), barrier r]

/-- The six fills of `Bounds` for one configuration; `none` is `exit(-1)`. -/
def fills [Field K] (cfg : Cfg K) : Option (Fin 3 → Bool → ℤ → ℤ → (ℤ → Cell K) → ℤ → Cell K) := do
  let f1L ← fillX1L cfg
  let f1R ← fillX1R cfg
  let f2L ← fillX2L cfg.d2
  let f2R ← fillX2R cfg.d2
  let f3L ← fillX3L cfg.d3
  let f3R ← fillX3R cfg.d3
  some fun d upper J Kk => match d, upper with
    | 0, false => f1L J Kk
    | 0, true => f1R J Kk
    | 1, false => f2L
    | 1, true => f2R
    | 2, false => f3L
    | 2, true => f3R

/-- Timers of `fixup`, core/fixup.c:15-20. -/
def fixupProg {τ : Type*} (work : R → τ → τ) : Prog R τ M := fun r => [barrier r, .comp (work r), barrier r]

/-- `fixup_utoprim` as run by a rank, core/fixup.c:264-359: barriers of its timers, and those of `fixup` (core/fixup.c:15-20) if all zones of the rank
are given up (`again`, core/fixup.c:355-356). `work` is the repair itself, `floors` that of `fixup`. -/
def repairProg {τ : Type*} (again : R → Bool) (work floors : R → τ → τ) : Prog R τ M := fun r =>
  [barrier r, .comp (work r)] ++ (if again r then fixupProg floors r else []) ++ [barrier r]

/-- An instruction on one array of a larger memory. -/
def lift {τ : Type*} (get : τ → σ) (set : τ → σ → τ) (r : R) : Instr R σ M → Instr R τ M
  | .comp f => .comp fun x => set x (f (get x))
  | .xchg dst src tag pay store => .xchg dst src tag (fun x => pay (get x)) fun x m => set x (store (get x) m)
  | .coll kind f => .coll kind fun W => set (W r) (f fun o => get (W o))

/-- Computations of a rank between calls, reductions, and which ranks give up all zones, for one call of `advance` and the repair after it. -/
structure Stage (R τ : Type*) where
  copy : R → τ → τ
  flux : R → τ → τ
  red : Fin 3 → R → (R → τ) → τ
  ct : R → τ → τ
  diag : R → τ → τ
  update : R → τ → τ
  floors : R → τ → τ
  repair : R → τ → τ
  again : R → Bool

/-- `advance`, core/step.c:177-228, with the three `mpi_max` of `fluxcalc`, core/step.c:345-347, then `fixup` and `fixup_utoprim`, core/step.c:53-54 and
95-96. Without electrons and `NO_GRMHD_UPDATE`. -/
def stageProg {τ : Type*} (w : Stage R τ) : Prog R τ M := fun r =>
  [.comp (w.copy r), barrier r, .comp (w.flux r), .coll 1 (w.red 0 r), .coll 1 (w.red 1 r), .coll 1 (w.red 2 r), .comp (w.ct r), barrier r,
    barrier r, .comp (w.diag r), barrier r, barrier r, .comp (w.update r), barrier r] ++ fixupProg w.floors r ++ repairProg w.again w.repair w.floors r

/-- What a step does on the ranks: two calls of `advance`, the rest, the reduction of the step. -/
structure StepWork (R τ : Type*) where
  save : R → τ → τ
  one : Stage R τ
  two : Stage R τ
  rest : R → τ → τ
  least : R → (R → τ) → τ
  last : R → τ → τ

/-- Where the arrays `Ph` and `P` (with `pflag`) are in memory. -/
structure Arrays (τ K : Type*) where
  getH : τ → Zones K
  setH : τ → Zones K → τ
  getP : τ → Zones K
  setP : τ → Zones K → τ

/-- `step`, core/step.c:26-175, without radiation and electrons. -/
def stepProg {τ : Type*} (d1 d2 d3 : Dim) (fill : Fin 3 → Bool → ℤ → ℤ → (ℤ → Cell K) → ℤ → Cell K) (chk : Ranks d1 d2 d3 → Zones K → Zones K) (A : Arrays τ K)
    (w : StepWork (Ranks d1 d2 d3) τ) : Prog (Ranks d1 d2 d3) τ (Zones K) := fun r =>
  [.comp (w.save r)] ++ stageProg w.one r ++ (boundProg d1 d2 d3 fill chk r).map (lift A.getH A.setH r)
    ++ stageProg w.two r ++ (boundProg d1 d2 d3 fill chk r).map (lift A.getP A.setP r) ++ [.comp (w.rest r), .coll 2 (w.least r), .comp (w.last r)]

/-- Steps one after the other. -/
def runProg {τ : Type*} (d1 d2 d3 : Dim) (fill : Fin 3 → Bool → ℤ → ℤ → (ℤ → Cell K) → ℤ → Cell K) (chk : Ranks d1 d2 d3 → Zones K → Zones K) (A : Arrays τ K)
    (ws : List (StepWork (Ranks d1 d2 d3) τ)) : Prog (Ranks d1 d2 d3) τ (Zones K) := fun r => ws.flatMap fun w => stepProg d1 d2 d3 fill chk A w r

end Nubhlight.Messages
