import Verif.Model.Tetrad
import Verif.Model.Metric

set_option autoImplicit false

/-!
# Model of `scatter_superphoton` of core/scattering.c

Frames and normalisations are those of `Tetrad`; what happens in the frame of the gas (`sample_gas_particle`, `sample_scattered_rad`: `Scattering`, `Compton`) is a function of the
wave vector there. Real numbers; infinities and NaN, which a division by zero gives, are found by `is_practically_nan` further on and end as any other failure.
-/

namespace Nubhlight.ScatterFrame
open Nubhlight.Fluid Nubhlight.Tetrad

/-- `ABSURDLY_LARGE`, core/decs.h:88. -/
noncomputable def ABSURDLY_LARGE : ℝ := 10 ^ 100

/-- One of the components is refused by `is_practically_nan`, core/util.c:55-57; the loops of core/scattering.c:121-125, 138-142, 176-189, 194-199, 223-228, 253-259, 283-289. -/
def Absurd (v : V4) : Prop := ∃ mu, ABSURDLY_LARGE < |v mu|

/-- What the function is called with besides the metric: four-velocity and trial vector (magnetic field) of the zone, whether the packet is a tracer, whether the gas is too cold
(`scatt_temp_too_small`, core/scattering.c:83-93), and the wave vector after scattering in the frame of the gas; `none` when that is not a number. -/
structure Gas where
  u : V4
  trial : V4
  tracer : Bool
  cold : Bool
  draw : V4 → Option V4

open Classical in
/-- From the wave vector in the frame of the gas on, core/scattering.c:134-328: new contravariant and covariant wave vector. -/
noncomputable def inFrame (G : Geom) (g : Gas) (Kcon : V4) : Option (V4 × V4) :=
  (makeTetrad G.gcov g.u g.trial).bind fun E =>
  let k := coordToTetrad E.2 Kcon
  if Absurd k then none else
  (g.draw k).bind fun s =>
  if Absurd s then none else
  let K := tetradToCoord E.1 s
  if Absurd K then none else
  (normalizeNull G.gcov K).bind fun K' =>
  if Absurd K' then none else
  let L := lower K' G.gcov
  if Absurd L then none else some (K', L)

open Classical in
/-- `scatter_superphoton`, core/scattering.c:95-328; `none` is `fail`. -/
noncomputable def scatter (G : Geom) (g : Gas) (Kcon Kcov : V4) : Option (V4 × V4) :=
  (normalizeNull G.gcov Kcon).bind fun k =>
  (normalizeNullCov G.gcon Kcov).bind fun l =>
  if g.tracer then none
  else if k 0 < 0 ∨ l 0 > 0 then none
  else if Absurd k ∨ Absurd l then none
  else if g.cold then none
  else inFrame G g k

end Nubhlight.ScatterFrame
