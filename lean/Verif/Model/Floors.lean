import Verif.Model.TableFallback

set_option autoImplicit false

/-!
# Model of the floors of a zone: the scale of its radius and the floors of each equation of state

core/fixup.c:84-106, core/eos.c:218-230, core/eos_stellar_collapse.c:855-874,888-912 as shipped (`BOUND_UORHO` and `OLD_U_FLOORS` 0,
core/eos_stellar_collapse.h:121,126). Floors of the gamma law and the polytrope are those of `Model/Eos`. Numbers are real.
-/

namespace Nubhlight.Floors
open Nubhlight.EosTable Nubhlight.Eos Nubhlight.TableFallback

/-- `METRIC`. -/
inductive Metric where
  | minkowski
  | mks
  | other

/-- `FLR_R0`, core/decs.h:74. -/
def FLR_R0 : ℝ := 50
/-- `FLR_POWER1`, core/decs.h:72. -/
def FLR_POWER1 : ℝ := 2
/-- `FLR_POWER2`, core/decs.h:73. -/
def FLR_POWER2 : ℝ := 2

/-- The scale at a radius, core/fixup.c:93-97. -/
noncomputable def radial (R0 p1 p2 r : ℝ) : Res :=
  if r ≤ R0 then pow r (-p1) else (pow R0 (p2 - p1)).bind fun a => (pow r (-p2)).bind fun b => .ok (a * b)

/-- `get_scale`, core/fixup.c:84-106, of a zone whose centre has radius `r`. -/
noncomputable def getScale (m : Metric) (r : ℝ) : Res :=
  match m with
  | .minkowski => .ok (1 / 10 ^ 2)
  | .mks => radial FLR_R0 FLR_POWER1 FLR_POWER2 r
  | .other => .exit

/-- An equation of state: gamma law, polytrope, or a table, given with the least specific energy at a logarithm of density (for the electron fraction of
the zone) and the logarithm of a density as the table takes it. -/
inductive Law where
  | gammaLaw (gam : ℝ)
  | polytrope
  | table (t : Tab) (eMin lrhoOf : ℝ → ℝ)

/-- `EOS_SC_u_floor`, core/eos_stellar_collapse.c:904-912, from the least energy at the density floor. -/
noncomputable def tableU (minu bsq : ℝ) : ℝ := if |minu| < bsq / BSQOUMAX then bsq / BSQOUMAX else minu

/-- `EOS_set_floors`, core/eos.c:218-230, with `EOS_SC_set_floors`, core/eos_stellar_collapse.c:855-862: floors of density and energy. -/
noncomputable def floors (l : Law) (scale u bsq : ℝ) : ℝ × Res :=
  match l with
  | .gammaLaw gam => Eos.gammaFloors gam scale u bsq
  | .polytrope => ((polyFloors scale bsq).1, .ok (polyFloors scale bsq).2)
  | .table t eMin lrhoOf => (scRhoFloor t scale bsq, .ok (tableU (uFloorMinu t.RHOunit t.Uunit eMin lrhoOf (scRhoFloor t scale bsq)) bsq))

end Nubhlight.Floors
