import Verif.Model.Tune
import Mathlib.Data.Real.Basic

set_option autoImplicit false

/-! # How the control of the number of packets is set up

core/rad_utils.c:42-75 (`init_superphoton_resolution`), core/input.c:134-137 (parameters), script/config.py:504-507 (their defaults). Called from
`init_rad` (core/rad_utils.c:31) by `init_core` (core/main.c:322) in runs that do not resume; a resumed run takes the numbers from its file
(core/io.c:1640-1648) and does not call it. Exact arithmetic. -/

namespace Nubhlight.TuneStart

open Tune

/-- Compile-time choices and parameters: `METRIC == MKS`, `ELECTRONS`, `strcmp(init_from_grmhd, "No") == 0`; `fel0`; `tf`; `Rout_rad`; the lengths
`N1TOT * dx[1]`, `N2TOT * dx[2]`, `N3TOT * dx[3]`; `column` is `L_unit * cross_section * Ne_unit` (core/rad_utils.c:49-53, 56); `nph_per_proc` and the number
of ranks; and the four parameters of the file. -/
structure Setup where
  mks : Bool
  electrons : Bool
  fromProblem : Bool
  fel0 : ℝ
  tf : ℝ
  rout : ℝ
  len1 : ℝ
  len2 : ℝ
  len3 : ℝ
  column : ℝ
  nph : ℝ
  nprocs : ℤ
  tuneE : ℝ
  tuneS : ℝ
  t0E : ℝ
  t0S : ℝ

/-- The size of the domain, core/rad_utils.c:91-95. -/
noncomputable def size (p : Setup) : ℝ := if p.mks then p.rout else max (max p.len1 p.len2) p.len3

/-- `dt_tune_emiss`, core/rad_utils.c:47, 61. -/
noncomputable def dtE (p : Setup) : ℝ := if p.mks then 1 / 2 else p.tf

/-- `dt_tune_scatt`, core/rad_utils.c:48, 62-63. -/
noncomputable def dtS (p : Setup) : ℝ := if p.mks then p.rout else max (max (max p.len1 p.len2) p.len3) p.tf

/-- core/rad_utils.c:69-73. -/
def late (p : Setup) : Prop := p.electrons = true ∧ p.fromProblem = true ∧ p.fel0 < 1 / 10

open Classical in
/-- `t_tune_emiss`, core/rad_utils.c:65-66, 69-74. -/
noncomputable def firstE (p : Setup) : ℝ := if late p then 500 else if p.t0E ≤ 0 then 2 * dtE p else p.t0E

open Classical in
/-- `t_tune_scatt`, core/rad_utils.c:67-68, 69-74. -/
noncomputable def firstS (p : Setup) : ℝ := if late p then 500 else if p.t0S ≤ 0 then 2 * dtS p else p.t0S

/-- `tune_scatt`, core/rad_utils.c:56: in the black-hole metric the number of the parameter file is overwritten. -/
noncomputable def strengthS (p : Setup) : ℝ := if p.mks then (1 / 10) / (p.rout * p.column) else p.tuneS

/-- The constants of the control after the start. -/
noncomputable def cfg (p : Setup) : Cfg ℝ := ⟨dtE p, dtS p, p.nph, size p, p.nprocs, p.mks⟩

/-- Its variables after the start, core/rad_utils.c:43, 56, 65-74. -/
noncomputable def start (p : Setup) : St ℝ := ⟨p.tuneE, strengthS p, firstE p, firstS p, 0, 0, 0⟩

end Nubhlight.TuneStart
