import Mathlib.Algebra.Order.Field.Basic
import Mathlib.Algebra.BigOperators.Group.List.Basic
import Mathlib.Algebra.BigOperators.Fin
import Mathlib.Algebra.Order.Ring.Rat
import Mathlib.Algebra.Order.Floor.Ring
import Mathlib.Data.Rat.Floor
import Mathlib.Algebra.Order.Ring.Abs
import Verif.Model.Emission

set_option autoImplicit false

/-!
# Neutrino flavour conversion

Source: core/oscillations.c:29-241, called from core/step.c:82-85 and (the accumulation alone) from the dump, core/io.c:1080.

Exact arithmetic. `D` stands for all fields of a packet other than type, weight and the conversion flag; `bin` for the part of
`get_local_angle_bins` that computes the location bin `C` and the angle bin `ι` for each of the two directions from those fields (its index
computation is `clampBin`, its normalisation `knormSq`, both below). All packets of all ranks and threads are one list: the sums over
threads (atomic additions) and ranks (`mpi_dbl_allreduce_array`) are sums over that list. The random numbers are inputs.
-/

namespace Nubhlight.Oscillate

variable {K : Type*} [Field K] [LinearOrder K]

/-- `SMALL`, core/decs.h:87. -/
def SMALL : K := 1 / 10 ^ 20

/-- A packet: type, weight, all other fields, and `has_oscillated`. -/
structure Pk (K D : Type*) where
  type : ℤ
  w : K
  rest : D
  osc : Bool

/-- `TYPE_TRACER` is -1, core/decs.h:166. -/
def isTracer {D : Type*} (p : Pk K D) : Bool := p.type == -1

/-- Index of a bin of width `dx` counted from `start`, core/oscillations.c:110-117: clamped, then truncated. -/
def clampBin {F : Type*} [Field F] [LinearOrder F] [FloorRing F] (n : ℕ) (x start dx : F) : ℤ :=
  ⌊max 0 (min ((n : F) - 1) ((x - start) / dx))⌋

/-- Square of the spatial length of the wave vector as computed, core/oscillations.c:98-103: the second factor of every product has the
index of the first. -/
def knormSq (gcov : Fin 3 → Fin 3 → K) (Kcon : Fin 3 → K) : K := ∑ mu, ∑ nu, |gcov mu nu * Kcon mu * Kcon mu|

/-- The two directions and the bins of a packet. -/
structure Bins (C ι : Type*) where
  cell : C
  mu : Bool → ι

section Acc

variable {D C ι : Type*} [DecidableEq C] [DecidableEq ι] (bin : D → Bins C ι)

/-- Does the packet fall into this bin, core/oscillations.c:45-48; tracers do not. -/
def hits (b : Bool) (c : C) (m : ι) (p : Pk K D) : Bool :=
  !isTracer p && (decide ((bin p.rest).cell = c) && decide ((bin p.rest).mu b = m))

/-- `local_angles`, core/oscillations.c:37, 50, 61. -/
def angles (ps : List (Pk K D)) (b : Bool) (c : C) (ty : ℤ) (m : ι) : K :=
  ((ps.filter fun p => hits bin b c m p && decide (p.type = ty)).map Pk.w).sum

/-- `local_Ns`, core/oscillations.c:38, 52, 62. -/
def count (ps : List (Pk K D)) (b : Bool) (c : C) (m : ι) : K := ((ps.filter (hits bin b c m)).length : K)

/-- `local_wsqr`, core/oscillations.c:39, 54, 63. -/
def wsqr (ps : List (Pk K D)) (b : Bool) (c : C) (m : ι) : K := ((ps.filter (hits bin b c m)).map fun p => p.w * p.w).sum

/-- `ELN - 0.5 XLN`, core/oscillations.c:141-146. -/
def gtemp (f : ℤ → K) : K := (f 0 - f 1) - 1 / 2 * (f 2 - f 3)

/-- Square of the deviation estimate, core/oscillations.c:126-138, four types. -/
def variance (f : ℤ → K) (Ns w2 : K) : K :=
  let wmean := (|f 0| + |f 1| + |f 2| + |f 3|) / (Ns + SMALL)
  let wb2N := Ns * wmean * wmean
  wb2N + Ns * (w2 - wb2N) / (|Ns - 1| + SMALL)

/-- Is `|g| > sqrt r`, core/oscillations.c:147? False when the root does not exist (comparison with NaN). -/
def significant (g r : K) : Bool := decide (0 ≤ r) && decide (r < g ^ 2)

/-- `compute_local_gnu`, core/oscillations.c:121-150. -/
def gnu (ps : List (Pk K D)) (b : Bool) (c : C) (m : ι) : K :=
  let f := fun ty => angles bin ps b c ty m
  if significant (gtemp f) (variance f (count bin ps b c m) (wsqr bin ps b c m)) then gtemp f else 0

/-- The moments kept between calls: `local_moments[b][MOMENTS_A]`, `[MOMENTS_B]`. -/
structure Mom (K C : Type*) where
  A : Bool → C → K
  B : Bool → C → K

/-- All zero, as at program start. -/
def Mom.zero : Mom K C := ⟨fun _ _ => 0, fun _ _ => 0⟩

variable [Fintype ι]

/-- The contributions of one call, core/oscillations.c:157-172. -/
def partA (g : ι → K) : K := ∑ m, if g m < 0 then |g m| else 0
def partB (g : ι → K) : K := ∑ m, if 0 < g m then |g m| else 0

/-- `accumulate_local_angles`, core/oscillations.c:29-71, effect on the moments: added to what is there; nothing in the code sets them to
zero. -/
def accumulate (M : Mom K C) (ps : List (Pk K D)) : Mom K C :=
  { A := fun b c => M.A b c + partA (gnu bin ps b c)
    B := fun b c => M.B b c + partB (gnu bin ps b c) }

/-- The direction chosen, core/oscillations.c:174-182. -/
def bOsc (M : Mom K C) (c : C) : Bool := decide (|M.B false c - M.A false c| < |M.B true c - M.A true c|)

/-- Probability to keep the flavour, core/oscillations.c:204-222. `force` is `FORCE_EQUIPARTITION`. -/
def survival (force : Bool) (A B G : K) (heavy : Bool) : K :=
  let aShallow := A < B
  let shallow := if aShallow then A else B
  let deep := if aShallow then B else A
  let inShallow := (aShallow ∧ G < 0) ∨ (¬ aShallow ∧ 0 < G)
  let peq : K := if heavy then 2 / 3 else 1 / 3
  if force then peq else if inShallow then peq else 1 - (1 - peq) * shallow / (deep + SMALL)

/-- Is conversion considered at all, core/oscillations.c:202. -/
def eligible (force : Bool) (A B G : K) : Bool := (decide (G ≠ 0) || force) && (decide (A ≠ 0) && decide (B ≠ 0))

/-- New type, core/oscillations.c:229; `n` is `RAD_NUM_TYPES`. Types are nonnegative, so C's remainder is the Euclidean one. -/
def partner (n : ℕ) (ty : ℤ) : ℤ := (ty + ((n / 2 : ℕ) : ℤ)) % n

/-- Probability that a packet converts, core/oscillations.c:191-223. -/
def pOsc (force : Bool) (M : Mom K C) (g : Bool → C → ι → K) (p : Pk K D) : K :=
  if isTracer p then 0 else
    let c := (bin p.rest).cell
    let b := bOsc M c
    let G := g b c ((bin p.rest).mu b)
    if eligible force (M.A b c) (M.B b c) G then 1 - survival force (M.A b c) (M.B b c) G (Emission.nuIsHeavy p.type) else 0

/-- One packet in `oscillate`, core/oscillations.c:191-236, with its random number `u`. -/
def oscOne (n : ℕ) (force : Bool) (M : Mom K C) (g : Bool → C → ι → K) (p : Pk K D) (u : K) : Pk K D :=
  if isTracer p then p else
    let c := (bin p.rest).cell
    let b := bOsc M c
    let G := g b c ((bin p.rest).mu b)
    if eligible force (M.A b c) (M.B b c) G then
      if u < 1 - survival force (M.A b c) (M.B b c) G (Emission.nuIsHeavy p.type) then
        { p with type := partner n p.type, osc := true }
      else p
    else p

/-- `oscillate`, core/oscillations.c:185-241. -/
def oscillate (n : ℕ) (force : Bool) (M : Mom K C) (g : Bool → C → ι → K) (ps : List (Pk K D)) (us : ℕ → K) : List (Pk K D) :=
  ps.mapIdx fun k p => oscOne bin n force M g p (us k)

/-- One step, core/step.c:75-87: nothing unless `dt_osc <= dt`. -/
def step (n : ℕ) (force active : Bool) (M : Mom K C) (ps : List (Pk K D)) (us : ℕ → K) : Mom K C × List (Pk K D) :=
  if active then
    let M' := accumulate bin M ps
    (M', oscillate bin n force M' (gnu bin ps) ps us)
  else (M, ps)

/-- The part of writing a dump that touches this state, core/io.c:1080. -/
def dump (M : Mom K C) (ps : List (Pk K D)) : Mom K C := accumulate bin M ps

end Acc

/-- Dump of the moments, core/io.c:1127-1146: the array of shape `[2][3][n]` (core/decs.h:381-385, `n` cells) is written with shape
`[2][2][n]`, so the file entry `(b, m, i)` is the memory word `(2 b + m) n + i`. `mem` is the memory word by word. -/
def fileMoment (n : ℕ) (mem : ℕ → K) (b m i : ℕ) : K := mem ((2 * b + m) * n + i)

/-- Where the moment `m` of direction `b` of cell `i` is stored. -/
def memMoment (n : ℕ) (b m i : ℕ) : ℕ := (3 * b + m) * n + i

end Nubhlight.Oscillate
