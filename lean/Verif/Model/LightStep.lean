import Verif.Model.Fluid

set_option autoImplicit false

/-! # Light-crossing times of zones

core/coord.c:475-477, 489-523, 536 (radiation part of `set_grid`). Exact arithmetic; a quotient by zero is infinite in the code, which is taken account of
where it can occur. -/

namespace Nubhlight.LightStep

open Nubhlight.Fluid

/-- `light_phase_speed` in one direction, core/coord.c:496-512. -/
noncomputable def speed (G : Geom) (mu : Fin 4) : ℝ :=
  let D := G.gcon 0 mu ^ 2 - G.gcon mu mu * G.gcon 0 0
  if 0 ≤ D then
    max |(-G.gcon 0 mu + Real.sqrt D) / G.gcon 0 0| |(-G.gcon 0 mu - Real.sqrt D) / G.gcon 0 0|
  else SMALL

/-- core/coord.c:516-518: an infinite crossing time is never smaller. -/
noncomputable def lower1 (dx : V4) (G : Geom) (acc : ℝ) (mu : Fin 4) : ℝ :=
  if speed G mu = 0 then acc else if dx mu / speed G mu < acc then dx mu / speed G mu else acc

/-- `dt_light[i][j]`, core/coord.c:491, 495, 516-519. -/
noncomputable def dtLight (dx : V4) (G : Geom) : ℝ :=
  lower1 dx G (lower1 dx G (lower1 dx G (10 ^ 30) 1) 2) 3

/-- `1. / dt_light_local` before core/coord.c:520: the sum of :514, where an infinite crossing time adds zero. -/
noncomputable def rate (dx : V4) (G : Geom) : ℝ := speed G 1 / dx 1 + speed G 2 / dx 2 + speed G 3 / dx 3

/-- core/coord.c:520-522. -/
noncomputable def lowerMin (dx : V4) (acc : ℝ) (G : Geom) : ℝ :=
  if rate dx G = 0 then acc else if 1 / rate dx G < acc then 1 / rate dx G else acc

/-- `dt_light_min`, core/coord.c:476, 520-522 over the zones of a rank (ghost zones included), and :536 over ranks (`mpi_min`). -/
noncomputable def dtLightMin (dx : V4) (first : List Geom) (others : List (List Geom)) : ℝ :=
  (others.map fun z => z.foldl (lowerMin dx) (1 / SMALL)).foldl min (first.foldl (lowerMin dx) (1 / SMALL))

end Nubhlight.LightStep
