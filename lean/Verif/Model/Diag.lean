import Mathlib.Algebra.BigOperators.Group.Finset.Basic
import Mathlib.Algebra.BigOperators.Intervals
import Mathlib.Data.Fintype.BigOperators
import Mathlib.Data.Real.Sqrt

set_option autoImplicit false

/-!
# Model of the log line: totals, fluxes through shells, luminosity

`diag` (core/diag.c:52-324), `diag_flux` (core/diag.c:360-380).

The grid is cut in the first direction into `C` slabs of `n` zones each (`N1CPU`, `N1`; `global_start[1] = c * n`, core/mpi.c:77 with
sizes that divide, C55), and in the other two directions into blocks. `T` is the set of zones of one shell, `blk` gives the block of a
zone; a rank is a slab and a block. Sums over threads and over ranks are exact sums.
-/

namespace Nubhlight.Diag

variable {T β : Type} [Fintype T] [Fintype β] [DecidableEq β]

/-- Number of ghost zones, core/decs.h. -/
def NG : ℕ := 3

/-- `SMALL`, core/decs.h:87. -/
noncomputable def small : ℝ := 1 / 10 ^ 20

/-- Zones of block `b` in one shell: `JSLOOP(0, N2 - 1) KSLOOP(0, N3 - 1)`. -/
def shell (blk : T → β) (b : β) : Finset T := Finset.univ.filter fun t => blk t = b

/-- Sum over the active zones of rank `(c, b)`, `ZLOOP`, core/decs.h:667-670, as in core/diag.c:107-121 and 142-182. `f g t` is the
quantity of the zone of shell `g` of the whole grid: `U[RHO] * dV` and so on. Local zone `i` of slab `c` is zone `c * n + i`. -/
noncomputable def sumRank (n : ℕ) (blk : T → β) (f : ℕ → T → ℝ) (c : ℕ) (b : β) : ℝ :=
  ∑ i ∈ Finset.range n, ∑ t ∈ shell blk b, f (c * n + i) t

/-- `mpi_reduce` and `mpi_io_reduce`, core/mpi.c:606-610, 654-659: sum over the ranks. -/
noncomputable def reduce (C : ℕ) (r : ℕ → β → ℝ) : ℝ := ∑ c ∈ Finset.range C, ∑ b : β, r c b

/-- Columns `rmed, pp, e, mass, egas, erad, lum_eht` of the log, core/diag.c:124-126, 189-196. -/
noncomputable def total (C n : ℕ) (blk : T → β) (f : ℕ → T → ℝ) : ℝ := reduce C (sumRank n blk f)

/-- `divbmax` of one rank, core/diag.c:106, 116-120: starts from 0 and is raised by every larger value; `d i t` over the zones in any order
of the transverse ones. -/
noncomputable def divbRank (n : ℕ) (zones : β → List T) (d : ℕ → T → ℝ) (c : ℕ) (b : β) : ℝ :=
  ((List.range n).flatMap fun i => (zones b).map fun t => d (c * n + i) t).foldl (fun m x => if x > m then x else m) 0

/-- `mpi_io_max`, core/mpi.c:661-666, over the ranks in any order; the first rank is rank 0. -/
noncomputable def maxRanks (r0 : ℝ) (l : List ℝ) : ℝ := l.foldl max r0

/-- `mdot`, `edot`, `ldot` of a rank, core/diag.c:361, 364-373: only ranks with `global_start[1] == 0`, at their first face. `F g t` is the
flux through the lower face of the zone `(g, t)`, with the face area of core/diag.c:371. -/
noncomputable def innerRank (n : ℕ) (blk : T → β) (F : ℕ → T → ℝ) (c : ℕ) (b : β) : ℝ :=
  if c * n = 0 then ∑ t ∈ shell blk b, F 0 t else 0

/-- `mdot_all` and so on, core/diag.c:183-185. -/
noncomputable def inner (C n : ℕ) (blk : T → β) (F : ℕ → T → ℝ) : ℝ := reduce C (innerRank n blk F)

/-- What is stored in the face array of a slab at local face `m` (index `NG + m`): faces `0..n` are computed by `fluxcalc`
(`ISLOOP(0, N1)`, core/step.c:303), further entries of the array stay zero, and beyond `n + NG - 1` there is no entry. -/
noncomputable def faceAt (n : ℕ) (F : ℕ → T → ℝ) (m : ℕ) (t : T) : Option ℝ :=
  if m ≤ n then some (F m t) else if m < n + NG then some 0 else none

open Classical in
/-- `mdot_eh` and so on, core/diag.c:363-364, 374-376: the face with local index `NG + 5` of the first slab. `none`: read outside the
array. -/
noncomputable def horizonRank (n : ℕ) (blk : T → β) (F : ℕ → T → ℝ) (c : ℕ) (b : β) : Option ℝ :=
  if c * n = 0 then
    if ∀ t ∈ shell blk b, (faceAt n F 5 t).isSome then some (∑ t ∈ shell blk b, (faceAt n F 5 t).getD 0) else none
  else some 0

open Classical in
/-- `mdot_eh_all`, core/diag.c:186-188. -/
noncomputable def horizon (C n : ℕ) (blk : T → β) (F : ℕ → T → ℝ) : Option ℝ :=
  if ∀ c < C, ∀ b, (horizonRank n blk F c b).isSome then some (reduce C fun c b => (horizonRank n blk F c b).getD 0) else none

/-- `Phi_proc` (and `jet_EM_flux_proc`), core/diag.c:162-176: added in the loop over active zones when
`global_start[1] == 0 && i == 5 + NG`. -/
noncomputable def phiRank (n : ℕ) (blk : T → β) (f : ℕ → T → ℝ) (c : ℕ) (b : β) : ℝ :=
  ∑ i ∈ Finset.range n, ∑ t ∈ shell blk b, if c * n = 0 ∧ i = 5 then f (c * n + i) t else 0

/-- `Phi`, core/diag.c:191. -/
noncomputable def bigPhi (C n : ℕ) (blk : T → β) (f : ℕ → T → ℝ) : ℝ := reduce C (phiRank n blk f)

/-- `phi = Phi / sqrt(mdot_all + SMALL)`, core/diag.c:192; `none`: not a number. -/
noncomputable def smallPhi (Phi mdotAll : ℝ) : Option ℝ :=
  if mdotAll + small ≤ 0 then none else some (Phi / Real.sqrt (mdotAll + small))

/-- First coordinate of the lower face of local zone `i` on slab `c`, core/coord.c:43-65. -/
noncomputable def faceX (startx dx : ℝ) (n c i : ℕ) : ℝ := startx + ((i : ℝ) + ((c * n : ℕ) : ℝ) - (NG : ℝ)) * dx

/-- The loop of core/diag.c:201-209 over `i = NG + 1 .. N1 + NG`, later matches replacing earlier ones; `none` is `-1`. -/
noncomputable def findStop (startx dx stop : ℝ) (n c : ℕ) : Option ℕ :=
  (List.range n).foldl (fun s m =>
    let i := NG + 1 + m
    if faceX startx dx n c i > stop ∧ faceX startx dx n c (i - 1) < stop then some (i - 2) else s) none

/-- core/diag.c:210-211. -/
noncomputable def stopIndex (startx dx stop : ℝ) (n c : ℕ) : ℕ := (findStop startx dx stop n c).getD (n + NG - 1)

/-- Entry of `Rmunu` at local index `i` (core/diag.c:216): `set_Rmunu` clears the whole array and fills active zones only (packets are in
the zones of their rank, C40), so ghost zones hold zero. `R g t` is `Rmunu[.][1][0] * dx[2] * dx[3] * g` of the zone. -/
noncomputable def rmunuAt (n c : ℕ) (R : ℕ → T → ℝ) (i : ℕ) (t : T) : ℝ :=
  if NG ≤ i ∧ i < n + NG then R (c * n + (i - NG)) t else 0

/-- `lum_proc`, core/diag.c:197, 213-220. -/
noncomputable def lumRank (startx dx stop : ℝ) (n : ℕ) (blk : T → β) (R : ℕ → T → ℝ) (c : ℕ) (b : β) : ℝ :=
  -∑ t ∈ shell blk b, rmunuAt n c R (stopIndex startx dx stop n c) t

/-- `lum`, core/diag.c:221. -/
noncomputable def lum (startx dx stop : ℝ) (C n : ℕ) (blk : T → β) (R : ℕ → T → ℝ) : ℝ := reduce C (lumRank startx dx stop n blk R)

/-- `eff = lum / (mdot + SMALL)`, core/diag.c:222, as printed by rank 0, which is slab 0 and block `b0` (core/diag.c:256, 285). `mdot` is the
variable of that rank, not the reduced `mdot_all`. `none`: division by zero. -/
noncomputable def eff (n : ℕ) (blk : T → β) (F : ℕ → T → ℝ) (b0 : β) (l : ℝ) : Option ℝ :=
  if innerRank n blk F 0 b0 + small = 0 then none else some (l / (innerRank n blk F 0 b0 + small))

end Nubhlight.Diag
