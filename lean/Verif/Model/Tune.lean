import Mathlib.Algebra.Order.Field.Basic
import Mathlib.Algebra.Order.Ring.Rat
import Mathlib.Data.Int.Basic

set_option autoImplicit false

/-!
# Control of the superphoton resolution

Source: core/rad_utils.c:77-158 (`update_superphoton_resolution`), called once per step (core/main.c:221).

Exact arithmetic. `mpi_reduce_int(...)` over all ranks is an input, the sum over ranks; the division by the number of ranks is the integer
division of C. The side effect `set_weight` (recomputing the weight normalisation) is left out. Infinite quotients are represented by
`none`.
-/

namespace Nubhlight.Tune

variable {K : Type*} [Field K] [LinearOrder K]

/-- Settings: `dt_tune_emiss`, `dt_tune_scatt`, `nph_per_proc`, `L`, number of ranks, `METRIC == MKS`. -/
structure Cfg (K : Type*) where
  dtE : K
  dtS : K
  nph : K
  L : K
  nprocs : ℤ
  mks : Bool

/-- `tune_emiss`, `tune_scatt`, `t_tune_emiss`, `t_tune_scatt` and the three counts summed over ranks. -/
structure St (K : Type*) where
  emiss : K
  scatt : K
  tE : K
  tS : K
  made : ℤ
  absd : ℤ
  scat : ℤ

/-- Numbers of one step summed over ranks, and the time. -/
structure In (K : Type*) where
  t : K
  made : ℤ
  absd : ℤ
  scat : ℤ

/-- A quotient in floating point arithmetic with nonnegative numerator: `none` is infinity. -/
def quot (a b : K) : Option K := if b = 0 then none else some (a / b)

/-- Limits on the emission correction, core/rad_utils.c:106-111. -/
def limitE : Option K → K
  | none => max (4 / 3) (1 / 2)
  | some c => if c < 0 then 4 / 3 else max (min c (4 / 3)) (1 / 2)

/-- Limits on the scattering correction, core/rad_utils.c:140-145. -/
def limitS (real : K) : Option K → K
  | none => if real < 1 / 10 ^ 20 then 1 else max (5 / 4) (1 / 4)
  | some c => if real < 1 / 10 ^ 20 then 1 else max (min c (5 / 4)) (1 / 4)

/-- Emission numbers core/rad_utils.c:98-102: what was made minus absorbed per rank, and the aim (`SCATT_BIAS_SAFETY` is 1/2,
core/decs.h:101). -/
def realE (g : Cfg K) (made absd : ℤ) : K := ((made.tdiv g.nprocs - absd.tdiv g.nprocs : ℤ) : K)
def idealE (g : Cfg K) : K := min (1 / 2) 1 * g.dtE * g.nph / g.L

/-- Scattering numbers core/rad_utils.c:128-130. -/
def realS (g : Cfg K) (scat : ℤ) : K := ((scat.tdiv g.nprocs : ℤ) : K)
def idealS (g : Cfg K) : K := g.dtS * g.nph / g.L

/-- Is the emission tuned now, core/rad_utils.c:97. -/
def tunesE (s : St K) (i : In K) : Prop := s.tE ≤ i.t

/-- Is the scattering tuned now, core/rad_utils.c:128-132. -/
def tunesS (g : Cfg K) (s : St K) (i : In K) : Prop :=
  s.tS ≤ i.t ∨ (g.mks = true ∧ ∃ c, quot (idealS g) (realS g (s.scat + i.scat)) = some c ∧ c < 1 / 4)

open Classical in
/-- `update_superphoton_resolution`, core/rad_utils.c:77-158. -/
noncomputable def update (g : Cfg K) (s : St K) (i : In K) : St K :=
  let made := s.made + i.made
  let absd := s.absd + i.absd
  let scat := s.scat + i.scat
  { emiss := if tunesE s i then s.emiss * limitE (quot (idealE g) (realE g made absd)) else s.emiss
    tE := if tunesE s i then s.tE + g.dtE else s.tE
    made := if tunesE s i then 0 else made
    absd := if tunesE s i then 0 else absd
    scatt := if tunesS g s i then s.scatt * limitS (realS g scat) (quot (idealS g) (realS g scat)) else s.scatt
    tS := if tunesS g s i then s.tS + g.dtS else s.tS
    scat := if tunesS g s i then 0 else scat }

end Nubhlight.Tune
