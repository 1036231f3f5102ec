import Verif.Model.FluxCT
import Mathlib.Data.List.Range
import Mathlib.Data.Fin.VecNotation

set_option autoImplicit false

/-!
# Loops shared among threads

The iterations of a loop run by several threads (`#pragma omp for`, `#pragma omp parallel for`), or of several loops without a
barrier between them (`nowait`), are lists of single accesses to shared memory. A schedule names, access by access, the
iteration that makes its next one. Every way of handing iterations to threads and every relative speed of the threads is such
a schedule (a thread additionally makes its own iterations one after the other). Each iteration has its own registers: the
variables declared in the loop body or listed as `private`. A barrier separates phases; memory is the same for all threads
after it.

The functions called by the loop bodies (`source`, `get_state`, `primtoflux`, `Utoprim`, ...) are parameters, functions of the
values read; that they touch no other shared variable was checked by reading them.
-/

namespace Nubhlight.Threads

/-- One access to shared memory: a load, a store of a value computed from the registers (or no store, as in
`if (pflag) fail_save = 1`), or an indivisible addition (`#pragma omp atomic`). -/
inductive Op (A V : Type*) where
  | read (a : A)
  | write (a : A) (f : (A → V) → Option V)
  | add (a : A) (f : (A → V) → V)

/-- State of a loop: what each iteration has still to do, its registers (indexed by the address loaded), and memory. -/
structure Conf (I A V : Type*) where
  rest : I → List (Op A V)
  reg : I → A → V
  mem : A → V

variable {I A V : Type*} [DecidableEq I] [DecidableEq A] [AddCommGroup V]

/-- Effect of an access on registers and memory. -/
def act (op : Op A V) (s : (A → V) × (A → V)) : (A → V) × (A → V) :=
  match op with
  | .read a => (Function.update s.1 a (s.2 a), s.2)
  | .write a f =>
    match f s.1 with
    | some v => (s.1, Function.update s.2 a v)
    | none => s
  | .add a f => (s.1, Function.update s.2 a (s.2 a + f s.1))

/-- Iteration `i` makes its next access; `none` if it has none left. -/
def step (i : I) (c : Conf I A V) : Option (Conf I A V) :=
  match c.rest i with
  | [] => none
  | op :: ops =>
    some ⟨Function.update c.rest i ops, Function.update c.reg i (act op (c.reg i, c.mem)).1, (act op (c.reg i, c.mem)).2⟩

/-- A schedule. -/
def runs : List I → Conf I A V → Option (Conf I A V)
  | [], c => some c
  | i :: is, c => (step i c).bind (runs is)

/-- Beginning of a loop: nothing in the registers. -/
def start (prog : I → List (Op A V)) (m : A → V) : Conf I A V := ⟨prog, fun _ _ => 0, m⟩

/-- A schedule that brings the loop to its end, and the memory it leaves; the schedule is not complete otherwise. -/
def Ends (prog : I → List (Op A V)) (m : A → V) (sched : List I) (m' : A → V) : Prop :=
  ∃ c, runs sched (start prog m) = some c ∧ (∀ i, c.rest i = []) ∧ c.mem = m'

/-- The loop body of an iteration that first loads and then stores. -/
structure Body (A V : Type*) where
  R : List A
  W : List (A × ((A → V) → Option V))

/-- Its accesses. -/
def Body.ops (b : Body A V) : List (Op A V) := b.R.map Op.read ++ b.W.map fun p => Op.write p.1 p.2

/-- Iterations of a loop: those in the range do the body. -/
def loopOf (inside : I → Bool) (B : I → Body A V) (i : I) : List (Op A V) := if inside i then (B i).ops else []

/-! ## The fluid update -/

/-- Shared arrays. -/
inductive Arr where
  | P | Ph | F (d : Fin 3) | emf (d : Fin 3) | pflag | failSave | radG | radGint | psuper
  deriving DecidableEq

/-- Zone, counted from the first active one. -/
abbrev Zone := ℤ × ℤ × ℤ

/-- An element of an array: array, zone, variable. -/
abbrev Addr := Arr × Zone × ℕ

variable {K : Type*} [Field K] [DecidableEq K]

/-- A row of variables of a zone as the functions of the loop body see it. -/
def row (n : ℕ) (r : Addr → K) (a : Arr) (z : Zone) : ℕ → K := fun ip => if ip < n then r (a, z, ip) else 0

/-- The elements of a row. -/
def rowAddrs (n : ℕ) (a : Arr) (z : Zone) : List Addr := (List.range n).map fun ip => (a, z, ip)

/-- What the loop body of the update calls: `source`, `get_state` with `primtoflux` in direction 0, and `Utoprim` (new variables
from conserved ones and a guess, and the code returned). -/
structure Phys (K : Type*) where
  source : Zone → (ℕ → K) → ℕ → K
  cons : Zone → (ℕ → K) → ℕ → K
  inv : Zone → (ℕ → K) → (ℕ → K) → ℕ → K
  code : Zone → (ℕ → K) → (ℕ → K) → K

/-- Neighbour in direction `d`. -/
def shift (z : Zone) (d : Fin 3) : Zone := z + ![(1, 0, 0), (0, 1, 0), (0, 0, 1)] d

/-- Conserved variables after the update, core/step.c:210-219. -/
def newU (n : ℕ) (ph : Phys K) (dx : Fin 3 → K) (Dt : K) (Pi Pb : Arr) (z : Zone) (r : Addr → K) (ip : ℕ) : K :=
  ph.cons z (row n r Pi z) ip +
    Dt * (-(row n r (.F 0) (shift z 0) ip - row n r (.F 0) z ip) / dx 0
      - (row n r (.F 1) (shift z 1) ip - row n r (.F 1) z ip) / dx 1
      - (row n r (.F 2) (shift z 2) ip - row n r (.F 2) z ip) / dx 2 + ph.source z (row n r Pb z) ip)

/-- Loop body of `advance` in zone `z`, core/step.c:209-224. `dU`, `qi`, `U` are private (core/step.c:208). -/
def updateBody (n : ℕ) (ph : Phys K) (dx : Fin 3 → K) (Dt : K) (Pi Pb Pf : Arr) (z : Zone) : Body Addr K where
  R := rowAddrs n Pb z ++ rowAddrs n Pi z ++ rowAddrs n (.F 0) (shift z 0) ++ rowAddrs n (.F 0) z ++
    rowAddrs n (.F 1) (shift z 1) ++ rowAddrs n (.F 1) z ++ rowAddrs n (.F 2) (shift z 2) ++ rowAddrs n (.F 2) z ++
    rowAddrs n Pf z
  W := ((List.range n).map fun ip => ((Pf, z, ip), fun r => some (ph.inv z (newU n ph dx Dt Pi Pb z r) (row n r Pf z) ip))) ++
    [((.pflag, z, 0), fun r => some (ph.code z (newU n ph dx Dt Pi Pb z r) (row n r Pf z))),
     ((.failSave, z, 0), fun r => if ph.code z (newU n ph dx Dt Pi Pb z r) (row n r Pf z) = 0 then none else some 1)]

/-- Range of `ZLOOP`, core/decs.h:667-670. -/
def inZ (d : FluxCT.Dims) (z : Zone) : Bool := FluxCT.inBox 0 (d.n1 - 1) 0 (d.n2 - 1) 0 (d.n3 - 1) z.1 z.2.1 z.2.2

/-- The update loop of `advance`, core/step.c:208-224. The predictor has `Pi = Pb = P`, `Pf = Ph`, the corrector `Pi = Pf = P`,
`Pb = Ph` (core/step.c:49, 91). -/
def updateLoop (d : FluxCT.Dims) (n : ℕ) (ph : Phys K) (dx : Fin 3 → K) (Dt : K) (Pi Pb Pf : Arr) : Zone → List (Op Addr K) :=
  loopOf (inZ d) (updateBody n ph dx Dt Pi Pb Pf)

/-- Conserved variables with the four-force added, core/step.c:249-254 (and :261-262 for `extra`: the list of pairs of a variable
and the component of `radG` added to it). -/
def forcedU (n : ℕ) (ph : Phys K) (Dt : K) (comp : ℕ → Option ℕ) (nG : ℕ) (z : Zone) (r : Addr → K) (ip : ℕ) : K :=
  ph.cons z (row n r .P z) ip + (match comp ip with | some g => Dt * row nG r .radG z g | none => 0)

/-- Loop body of `apply_rad_force`, core/step.c:238-277: `comp` gives the component of `radG` added to a variable (momenta 1-4:
0-3; lepton number with neutrinos), `nG` their number. -/
def forceBody (n : ℕ) (ph : Phys K) (Dt : K) (comp : ℕ → Option ℕ) (nG : ℕ) (z : Zone) : Body Addr K where
  R := rowAddrs n .P z ++ rowAddrs nG .radG z ++ rowAddrs nG .radGint z
  W := ((List.range n).map fun ip => ((.psuper, z, ip), fun r => some (r (.P, z, ip)))) ++
    ((List.range nG).map fun g => ((.radGint, z, g), fun r => some (r (.radGint, z, g) + Dt * r (.radG, z, g)))) ++
    ((List.range n).map fun ip => ((.P, z, ip), fun r => some (ph.inv z (forcedU n ph Dt comp nG z r) (row n r .P z) ip))) ++
    [((.pflag, z, 0), fun r => some (ph.code z (forcedU n ph Dt comp nG z r) (row n r .P z))),
     ((.failSave, z, 0), fun r => if ph.code z (forcedU n ph Dt comp nG z r) (row n r .P z) = 0 then none else some 1)]

/-- The loop of `apply_rad_force`, core/step.c:237-278. -/
def forceLoop (d : FluxCT.Dims) (n : ℕ) (ph : Phys K) (Dt : K) (comp : ℕ → Option ℕ) (nG : ℕ) : Zone → List (Op Addr K) :=
  loopOf (inZ d) (forceBody n ph Dt comp nG)

/-! ## `flux_ct` -/

/-- Loop body of the first loop, core/step.c:365-372. Magnetic components are numbered 0, 1, 2. -/
def emfBody (z : Zone) : Body Addr K :=
  let i := z.1; let j := z.2.1; let k := z.2.2
  { R := [(.F 0, (i, j, k), 1), (.F 0, (i, j - 1, k), 1), (.F 1, (i, j, k), 0), (.F 1, (i - 1, j, k), 0),
          (.F 0, (i, j, k), 2), (.F 0, (i, j, k - 1), 2), (.F 2, (i, j, k), 0), (.F 2, (i - 1, j, k), 0),
          (.F 1, (i, j, k), 2), (.F 1, (i, j, k - 1), 2), (.F 2, (i, j, k), 1), (.F 2, (i, j - 1, k), 1)]
    W := [((.emf 2, (i, j, k), 0), fun r => some ((1/4) *
            (r (.F 0, (i, j, k), 1) + r (.F 0, (i, j - 1, k), 1) - r (.F 1, (i, j, k), 0) - r (.F 1, (i - 1, j, k), 0)))),
          ((.emf 1, (i, j, k), 0), fun r => some (-(1/4) *
            (r (.F 0, (i, j, k), 2) + r (.F 0, (i, j, k - 1), 2) - r (.F 2, (i, j, k), 0) - r (.F 2, (i - 1, j, k), 0)))),
          ((.emf 0, (i, j, k), 0), fun r => some ((1/4) *
            (r (.F 1, (i, j, k), 2) + r (.F 1, (i, j, k - 1), 2) - r (.F 2, (i, j, k), 1) - r (.F 2, (i, j - 1, k), 1))))] }

/-- First loop of `flux_ct`, core/step.c:364-372, closed by a barrier. -/
def emfLoop (d : FluxCT.Dims) : Fin 3 × Zone → List (Op Addr K) :=
  loopOf (fun x => decide (x.1 = 0) && FluxCT.inBox 0 d.n1 0 d.n2 0 d.n3 x.2.1 x.2.2.1 x.2.2.2) fun x => emfBody x.2

/-- Loop bodies of the three rewrite loops, core/step.c:376-392. -/
def rewriteBody (x : Fin 3 × Zone) : Body Addr K :=
  let i := x.2.1; let j := x.2.2.1; let k := x.2.2.2
  match x.1 with
  | 0 =>
    { R := [(.emf 2, (i, j, k), 0), (.emf 2, (i, j + 1, k), 0), (.emf 1, (i, j, k), 0), (.emf 1, (i, j, k + 1), 0)]
      W := [((.F 0, (i, j, k), 0), fun _ => some 0),
            ((.F 0, (i, j, k), 1), fun r => some ((1/2) * (r (.emf 2, (i, j, k), 0) + r (.emf 2, (i, j + 1, k), 0)))),
            ((.F 0, (i, j, k), 2), fun r => some (-(1/2) * (r (.emf 1, (i, j, k), 0) + r (.emf 1, (i, j, k + 1), 0))))] }
  | 1 =>
    { R := [(.emf 2, (i, j, k), 0), (.emf 2, (i + 1, j, k), 0), (.emf 0, (i, j, k), 0), (.emf 0, (i, j, k + 1), 0)]
      W := [((.F 1, (i, j, k), 0), fun r => some (-(1/2) * (r (.emf 2, (i, j, k), 0) + r (.emf 2, (i + 1, j, k), 0)))),
            ((.F 1, (i, j, k), 1), fun _ => some 0),
            ((.F 1, (i, j, k), 2), fun r => some ((1/2) * (r (.emf 0, (i, j, k), 0) + r (.emf 0, (i, j, k + 1), 0))))] }
  | 2 =>
    { R := [(.emf 1, (i, j, k), 0), (.emf 1, (i + 1, j, k), 0), (.emf 0, (i, j, k), 0), (.emf 0, (i, j + 1, k), 0)]
      W := [((.F 2, (i, j, k), 0), fun r => some ((1/2) * (r (.emf 1, (i, j, k), 0) + r (.emf 1, (i + 1, j, k), 0)))),
            ((.F 2, (i, j, k), 1), fun r => some (-(1/2) * (r (.emf 0, (i, j, k), 0) + r (.emf 0, (i, j + 1, k), 0)))),
            ((.F 2, (i, j, k), 2), fun _ => some 0)] }

/-- Ranges of the three rewrite loops, core/step.c:376, 382, 388. -/
def rewriteIn (d : FluxCT.Dims) (x : Fin 3 × Zone) : Bool :=
  match x.1 with
  | 0 => FluxCT.inBox 0 d.n1 0 (d.n2 - 1) 0 (d.n3 - 1) x.2.1 x.2.2.1 x.2.2.2
  | 1 => FluxCT.inBox 0 (d.n1 - 1) 0 d.n2 0 (d.n3 - 1) x.2.1 x.2.2.1 x.2.2.2
  | 2 => FluxCT.inBox 0 (d.n1 - 1) 0 (d.n2 - 1) 0 d.n3 x.2.1 x.2.2.1 x.2.2.2

/-- The rewrite loops of `flux_ct`, core/step.c:375-392: the first two are marked `nowait`, so that the iterations of all three may
run at the same time. -/
def rewriteLoop (d : FluxCT.Dims) : Fin 3 × Zone → List (Op Addr K) := loopOf (rewriteIn d) rewriteBody

/-! ## Tallies of the interactions -/

/-- Tallies a packet adds to when it is absorbed in a zone: four-force, counts, optical depths, and the energy in `Jrad[1]`. -/
inductive Tally where
  | radG (mu : ℕ) | count | depth | jrad
  deriving DecidableEq

/-- Accesses of an absorbed packet, core/interact.c:492-525: indivisible additions, except that to `Jrad[1]` (core/interact.c:506-507),
which lacks the `atomic` of its neighbours: a load and a store. `c` gives the amounts. -/
def absorbOps (nG : ℕ) (zone : ℕ) (c : Tally → V) : List (Op (Tally × ℕ) V) :=
  ((List.range nG).map fun mu => Op.add (.radG mu, zone) fun _ => c (.radG mu)) ++
    [.read (.jrad, zone), .write (.jrad, zone) (fun r => some (r (.jrad, zone) + c .jrad)),
     .add (.count, zone) (fun _ => c .count), .add (.depth, zone) fun _ => c .depth]

/-- The packets absorbed in a step, each in its zone. -/
def absorbLoop (nG : ℕ) (packets : List (ℕ × (Tally → V))) : ℕ → List (Op (Tally × ℕ) V) := fun p =>
  match packets[p]? with
  | some (zone, c) => absorbOps nG zone c
  | none => []

end Nubhlight.Threads
