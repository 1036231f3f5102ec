import Verif.Model.Fluid
import Mathlib.Analysis.SpecialFunctions.Trigonometric.Inverse

set_option autoImplicit false

/-!
# Model of the fluid quantities used by the radiation

core/rad_utils.c:280-368 (`precompute_microphysics`, `get_fluid_zone`), core/radiation.c:84-123 (frequency and angle in the fluid frame),
core/rad_utils.c:677-746 (cooling time), core/make_superphotons.c:375-421 and core/interact.c:221-242 (which zones use the stored data).
Real numbers replace floating point; results that are not numbers are `none`.
-/

namespace Nubhlight.RadZone

open Nubhlight.Fluid

/-- Velocity and field of a zone in physical units: the vectors of `get_fluid_zone`. -/
structure Zone where
  ucon : V4
  ucov : V4
  bcon : V4
  bcov : V4

/-- `VdotV`, core/rad_utils.c:321-326: the double loop over spatial indices. -/
def vdotv (P : Prim) (G : Geom) : ℝ :=
  let V : Fin 3 → ℝ := ![P 2, P 3, P 4]
  ∑ l : Fin 3, ∑ m : Fin 3, G.gcov l.succ m.succ * V l * V m

/-- `get_fluid_zone`, velocity and field, core/rad_utils.c:312-340. -/
noncomputable def fluidZone (Bunit : ℝ) (P : Prim) (G : Geom) : Zone :=
  let Vfac := Real.sqrt (-1 / G.gcon 0 0 * (1 + |vdotv P G|))
  let ucon : V4 := ![-Vfac * G.gcon 0 0, P 2 - Vfac * G.gcon 0 1, P 3 - Vfac * G.gcon 0 2, P 4 - Vfac * G.gcon 0 3]
  let ucov := lower ucon G.gcov
  let UB := ucov 1 * (P 5 * Bunit) + ucov 2 * (P 6 * Bunit) + ucov 3 * (P 7 * Bunit)
  let bcon : V4 := ![UB, (P 5 * Bunit + ucon 1 * UB) / ucon 0, (P 6 * Bunit + ucon 2 * UB) / ucon 0, (P 7 * Bunit + ucon 3 * UB) / ucon 0]
  ⟨ucon, ucov, bcon, lower bcon G.gcov⟩

/-- `m->B`, core/rad_utils.c:342-343. `none` for the square root of a negative number. -/
noncomputable def zoneB (z : Zone) : Option ℝ :=
  let s := z.bcon 0 * z.bcov 0 + z.bcon 1 * z.bcov 1 + z.bcon 2 * z.bcov 2 + z.bcon 3 * z.bcov 3
  if s < 0 then none else some (Real.sqrt s)

/-- `get_fluid_nu`, core/radiation.c:85-95. `unit` stands for `ME*CL*CL/HPL`. -/
def fluidNu (unit : ℝ) (Kcov ucon : V4) : ℝ :=
  -(Kcov 0 * ucon 0 + Kcov 1 * ucon 1 + Kcov 2 * ucon 2 + Kcov 3 * ucon 3) * unit

/-- `get_bk_angle`, core/radiation.c:98-123. `none`: a division of or by zero, or the arc cosine of a number outside `[-1, 1]`. -/
noncomputable def bkAngle (K ucov bcov : V4) (B : ℝ) : Option ℝ :=
  if B = 0 then some (Real.pi / 2)
  else
    let k := |K 0 * ucov 0 + K 1 * ucov 1 + K 2 * ucov 2 + K 3 * ucov 3|
    if |k * B| = 0 then none
    else
      let mu := (K 0 * bcov 0 + K 1 * bcov 1 + K 2 * bcov 2 + K 3 * bcov 3) / |k * B|
      let mu' := if |mu| > 1 then (if mu / |mu| > 0 then mu / |mu| - 1 / 10 ^ 10 else mu / |mu| + 1 / 10 ^ 10) else mu
      if |mu'| > 1 then none else some (Real.arccos mu')

/-! ## Which zones have data of the present step -/

/-- The compile-time choices `EOS == EOS_TYPE_TABLE`, `POLYTROPE_FALLBACK && !GAMMA_FALLBACK`, `METRIC == MKS`. -/
structure Build where
  table : Bool
  poly : Bool
  mks : Bool

/-- Extent of the radiation and of the grid, and the thresholds. -/
structure Lim where
  start : ℝ
  stop : ℝ
  dx1 : ℝ
  NG : ℕ
  rhoPoly : ℝ
  small : ℝ
  atmThresh : ℝ

/-- What the tests read in a zone: its centre, and density, energy and atmosphere marker of one state. -/
structure Probe where
  X1 : ℝ
  rho : ℝ
  u : ℝ
  atm : ℝ

/-- Whether `precompute_microphysics` fills a zone, core/rad_utils.c:286-292; it reads the state `P` at the beginning of the step. -/
noncomputable def filled (b : Build) (l : Lim) (p : Probe) : Bool :=
  !(b.table && b.mks && decide (p.atm < l.atmThresh)) && decide (p.X1 ≤ l.stop + (l.NG + 1) * l.dx1)

/-- Whether `get_dnz` lets a zone emit, core/make_superphotons.c:380-399; it is given the state `Ph` at the middle of the step
(core/step.c:67). -/
noncomputable def mayEmit (b : Build) (l : Lim) (p : Probe) : Bool :=
  !(decide (p.X1 < l.start) || decide (p.X1 > l.stop)) &&
    !(b.table && b.poly && (decide (p.rho < l.rhoPoly) || decide (p.u < l.small))) &&
    !(b.table && b.poly && b.mks && decide (p.atm < l.atmThresh))

/-- Whether `interact` uses the data of a packet's zone, core/interact.c:221-228; it is given `Ph` (core/step.c:71). -/
noncomputable def mayInteract (b : Build) (l : Lim) (p : Probe) : Bool := !(b.table && b.mks && decide (p.atm < l.atmThresh))

/-- The stored data of a zone: the step it was computed in, `none` before the first time (core/defs.h:85). -/
def store (b : Bool) (n : ℕ) (old : Option ℕ) : Option ℕ := if b then some n else old

/-- Data of a zone after the steps whose states `P` are listed, the latest first: step numbers count from the first. -/
noncomputable def stored (b : Build) (l : Lim) : List Probe → Option ℕ
  | [] => none
  | p :: ps => store (filled b l p) ps.length (stored b l ps)

/-! ## Cooling time -/

/-- `get_dt_cool_rad_zone`, core/rad_utils.c:677-683: `J` is the total emissivity of the zone. -/
noncomputable def dtCoolZone (Uunit Tunit small u J : ℝ) : ℝ := (|u * Uunit| + small) / (|J| + small) / Tunit

/-- The zones `get_min_dt_cool` looks at, core/rad_utils.c:721-733. -/
noncomputable def coolZone (b : Build) (l : Lim) (p : Probe) : Bool :=
  !(decide (p.X1 < l.start) || decide (p.X1 > l.stop)) &&
    !(b.table && b.poly && (decide (p.rho < l.rhoPoly) || decide (p.u < l.small))) &&
    !(b.table && b.poly && b.mks && decide (p.atm < l.atmThresh))

/-- The zones `set_cooling_time` gives a time in the dump, core/rad_utils.c:693-709; for others it writes infinity. -/
noncomputable def coolDumped (b : Build) (l : Lim) (p : Probe) : Bool :=
  !(decide (p.X1 < l.start) || decide (p.X1 > l.stop)) &&
    !(b.table && b.poly && (decide (p.rho < l.rhoPoly) || decide (p.u < l.small)))

/-- The minimum over a rank's zones, core/rad_utils.c:713-743, in the order in which the threads reduce it: `⊤` is the initial infinity. -/
noncomputable def minCoolRank (b : Build) (l : Lim) (Uunit Tunit : ℝ) (zs : List (Probe × ℝ)) : WithTop ℝ :=
  zs.foldl (fun d z => if coolZone b l z.1 then
    (if ((dtCoolZone Uunit Tunit l.small z.1.u z.2 : ℝ) : WithTop ℝ) < d then ((dtCoolZone Uunit Tunit l.small z.1.u z.2 : ℝ) : WithTop ℝ) else d)
    else d) ⊤

/-- `get_min_dt_cool`, core/rad_utils.c:713-746: the minimum over ranks (`mpi_min`). -/
noncomputable def minCool (b : Build) (l : Lim) (Uunit Tunit : ℝ) (ranks : List (List (Probe × ℝ))) : WithTop ℝ :=
  (ranks.map (minCoolRank b l Uunit Tunit)).foldl min ⊤

/-- The step proposed with radiation, core/step.c:135-136. An infinite cooling time leaves the light-crossing limit. -/
noncomputable def radProposal (cour light courCool : ℝ) : WithTop ℝ → ℝ
  | ⊤ => cour * light
  | (c : ℝ) => min (cour * light) (courCool * c)

end Nubhlight.RadZone
