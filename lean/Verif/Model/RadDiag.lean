import Mathlib.Algebra.BigOperators.Fin
import Mathlib.Algebra.BigOperators.Intervals
import Mathlib.Data.Real.Basic
import Mathlib.Algebra.Order.Floor.Ring
import Mathlib.Algebra.Order.Archimedean.Real.Basic

set_option autoImplicit false

/-!
# Model of the diagnostics made from the list of packets

`set_Rmunu` (core/rad_utils.c:572-611), `count_leptons` (core/diag.c:502-569), `generate_rz_histograms` (core/diag.c:572-620),
`print_rad_types` (core/diag.c:622-660), load imbalance (core/main.c:178-184). Threads add with atomic operations in some order; a list in
any order stands for the packets of a rank.
-/

namespace Nubhlight.RadDiag

/-! ## Radiation stress tensor -/

/-- What `set_Rmunu` uses of a packet: whether it is a tracer, its weight, the zone of its interpolated position (core/rad_utils.c:592-593)
and its interpolated wave vectors. The status returned by the interpolation is not looked at. -/
structure Ph (Z : Type) where
  tracer : Bool
  w : ℝ
  zone : Z
  Kcon : Fin 4 → ℝ
  Kcov : Fin 4 → ℝ

/-- The arrays `Rmunu`, `Nsph`, `nph`. -/
structure Arrays (Z : Type) where
  R : Z → Fin 4 → Fin 4 → ℝ
  N : Z → ℕ
  n : Z → ℝ

/-- Units and geometry: `kphys_to_num`, `L_unit`, `ggeom[i][j][CENT].g * dx[1] * dx[2] * dx[3]`. -/
structure Geo (Z : Type) where
  k : ℝ
  L : ℝ
  vol : Z → ℝ

variable {Z : Type} [DecidableEq Z]

/-- Body of the loop, core/rad_utils.c:586-607. -/
noncomputable def deposit (G : Geo Z) (a : Arrays Z) (p : Ph Z) : Arrays Z :=
  if p.tracer then a
  else
    { R := fun z mu nu => if z = p.zone then a.R z mu nu + G.k * p.Kcon mu * p.Kcov nu * p.w / (p.Kcon 0 * G.vol p.zone) else a.R z mu nu
      N := fun z => if z = p.zone then a.N z + 1 else a.N z
      n := fun z => if z = p.zone then a.n z + p.w / (G.vol p.zone * G.L ^ 3) else a.n z }

/-- `set_Rmunu`, core/rad_utils.c:572-611; the arrays are cleared first (:573-579). -/
noncomputable def setRmunu (G : Geo Z) (l : List (Ph Z)) : Arrays Z := l.foldl (deposit G) ⟨fun _ _ _ => 0, fun _ => 0, fun _ => 0⟩

/-! ## Lepton audit -/

/-- `get_lepton_sign`, core/rad_utils.c:754-760. Packet types, core/decs.h:166-171: tracer -1, electron neutrino 0, its antiparticle 1,
heavy 2, heavy antiparticle 3. -/
def leptonSign (ty : ℤ) : ℝ := if ty = 0 then 1 else if ty = 1 then -1 else 0

/-- Inputs of one call of `count_leptons`, per rank: `lepton_lost_local`, the leptons of the gas of every zone (core/diag.c:518-526), the
types and weights of the packets. -/
structure RankIn where
  lost : ℝ
  gas : List ℝ
  packets : List (ℤ × ℝ)

/-- The globals `lepton_tot`, `lepton_lost`, the same on all ranks. -/
structure Audit where
  tot : ℝ
  lost : ℝ

/-- `mpi_reduce`. -/
noncomputable def total (rs : List RankIn) (f : RankIn → ℝ) : ℝ := (rs.map f).sum

/-- core/diag.c:517-529. -/
noncomputable def gasOf (r : RankIn) : ℝ := r.gas.foldl (· + ·) 0

/-- core/diag.c:531-541. -/
noncomputable def radOf (r : RankIn) : ℝ := r.packets.foldl (fun s p => if p.1 ≠ -1 then s + p.2 * leptonSign p.1 else s) 0

/-- core/diag.c:504, 511-543. `lepton_lost_local` is zero afterwards (:513). -/
noncomputable def audit (a : Audit) (rs : List RankIn) : Audit :=
  let lost := a.lost + total rs RankIn.lost
  { lost := lost, tot := total rs radOf + total rs gasOf + lost }

/-- A floating-point quotient: a number, infinite or not a number. -/
inductive Quot
  | num (x : ℝ)
  | inf
  | nan

open Classical in
/-- `dlepton_perc = 100. * (lepton_tot - lepton_last) / lepton_tot`, core/diag.c:545. -/
noncomputable def perc (last tot : ℝ) : Quot :=
  if tot ≠ 0 then .num (100 * (tot - last) / tot) else if tot - last ≠ 0 then .inf else .nan

open Classical in
/-- `fabs(dlepton_perc) > DLEPTON_THRESH` with `DLEPTON_THRESH = 1e-10`, core/decs.h:193; comparisons with a NaN are false. -/
noncomputable def exceeds : Quot → Bool
  | .num x => decide (|x| > 1 / 10 ^ 10)
  | .inf => true
  | .nan => false

/-- Does the call stop the run, core/diag.c:547-566, when compiled with `COMPLAIN_ON_LEPTON_NONCON`? The number of ranks is the length of the
list. All ranks see the same values and stop together. -/
noncomputable def stops (nstep : ℕ) (a : Audit) (rs : List RankIn) : Bool :=
  decide (nstep > 1) && exceeds (perc a.tot (audit a rs).tot) && decide (rs.length > 1)

/-- The audits of a run: one call per step (core/main.c:224), the first with `nstep = 1`; `none` when the run was stopped. `nstep` is the
number of the next step. -/
noncomputable def audits : ℕ → Audit → List (List RankIn) → Option Audit
  | _, a, [] => some a
  | nstep, a, rs :: l => if stops nstep a rs then none else audits (nstep + 1) (audit a rs) l

/-! ## Histograms of origins -/

/-- `SMALL`, core/decs.h:87. -/
noncomputable def small : ℝ := 1 / 10 ^ 20

/-- Bin of a radius or height, core/diag.c:588-592 with `delta = rmax / N` (core/input.c:251-252): `MY_MIN(r, fabs(rmax) - SMALL)` over
`delta + SMALL`, truncated. `sub` and `add` are the subtraction and addition of the machine. (The code takes the root of `x*x+y*y` in single
precision; the radius enters here as given.) -/
noncomputable def bin (sub add : ℝ → ℝ → ℝ) (N : ℕ) (rmax r : ℝ) : ℤ :=
  let d := sub |rmax| small
  ⌊(if r < d then r else d) / add (rmax / (N : ℝ)) small⌋

/-- `hist[ir] += w` over the packets of all ranks, core/diag.c:577-609, and the sum over ranks (:611-612): contents of bin `m`, for packets
given by bin and weight. -/
noncomputable def hist (l : List (ℤ × ℝ)) (m : ℤ) : ℝ := l.foldl (fun s p => if p.1 = m then s + p.2 else s) 0

/-- First coordinate of the centre of local zone `i` on a rank whose first zone is `gs`, core/coord.c:43-65. -/
noncomputable def centre (startx dx : ℝ) (gs i : ℕ) : ℝ := startx + ((i : ℝ) + (gs : ℝ) + 1 / 2 - 3) * dx

/-- The coordinate used for a packet: `origin` holds the local index on the rank where the packet was made (core/make_superphotons.c:213,
core/interact.c:603), is carried along unchanged (core/rad_utils.c:399, core/mpi.c:197), and is turned into a coordinate with the first
zone of the rank that holds the packet now (core/diag.c:580-583). -/
noncomputable def originX (startx dx : ℝ) (gsNow origin : ℕ) : ℝ := centre startx dx gsNow origin

/-! ## Shares of the types, load imbalance -/

/-- `rad_type_counts[type]` after reduction, core/diag.c:625-637; `n` types. -/
noncomputable def typeCount (l : List (ℤ × ℝ)) (ty : ℕ) : ℝ :=
  l.foldl (fun s p => if p.1 ≠ -1 then (if p.1 = (ty : ℤ) then s + p.2 else s) else s) 0

open Classical in
/-- core/diag.c:638-640; `none`: not a number. -/
noncomputable def typeShare (n : ℕ) (l : List (ℤ × ℝ)) (ty : ℕ) : Option ℝ :=
  let tot := ∑ i ∈ Finset.range n, typeCount l i
  if tot = 0 then none else some (typeCount l ty / tot * 100)

/-- `load_imbalance = 1.0 - step_tot_min / step_tot_max`, core/main.c:180-184, for numbers of packets of the ranks; `none`: not a number. -/
noncomputable def imbalance (r0 : ℕ) (l : List ℕ) : Option ℝ :=
  if l.foldl max r0 = 0 then none else some (1 - ((l.foldl min r0 : ℕ) : ℝ) / ((l.foldl max r0 : ℕ) : ℝ))

end Nubhlight.RadDiag
