import Mathlib.Data.Real.Basic

set_option autoImplicit false

/-! # Weights of packets in runs that are stopped and resumed

core/make_superphotons.c:310-343 (`set_weight`), core/rad_utils.c:97-126 (tuning), core/io.c:1362-1366, 1640-1644, 1918 (restart). Exact arithmetic. -/

namespace Nubhlight.ResumedWeights

/-- `tune_emiss`, `t_tune_emiss`, `wgtC`. The first two are in the restart file, the last is not. -/
structure Ctl where
  tune : ℝ
  tTune : ℝ
  wgt : ℝ

/-- One step: the time after it, the emissivity of the whole grid then (`Jtot`, core/make_superphotons.c:322-339), and the factor the tuning would apply
(core/rad_utils.c:98-111; a given number here, see C90 and `Model/Tune.lean`). -/
structure Step where
  t : ℝ
  jtot : ℝ
  corr : ℝ

/-- `set_weight`, core/make_superphotons.c:315, 341: `c` collects the constants `HPL`, `nusamp[0]` and the size of the grid. -/
noncomputable def weight (c jtot tune : ℝ) : ℝ := c * jtot / tune

/-- `update_superphoton_resolution`, emission part, core/rad_utils.c:97-126, called after every step (core/main.c:221). -/
noncomputable def update (c dtTune : ℝ) (x : Ctl) (s : Step) : Ctl :=
  if x.tTune ≤ s.t then ⟨x.tune * s.corr, x.tTune + dtTune, weight c s.jtot (x.tune * s.corr)⟩ else x

/-- A stop and a restart after a step: two numbers come from the file, the weight is computed again, core/io.c:1918. -/
noncomputable def resume (c : ℝ) (x : Ctl) (s : Step) : Ctl := ⟨x.tune, x.tTune, weight c s.jtot x.tune⟩

/-- A run: after some of its steps it is stopped and resumed. -/
noncomputable def run (c dtTune : ℝ) (x : Ctl) (h : List (Step × Bool)) : Ctl :=
  h.foldl (fun x e => if e.2 then resume c (update c dtTune x e.1) e.1 else update c dtTune x e.1) x

/-- Mean number of packets made in a zone in a step, core/make_superphotons.c:402-420 (as in `Model/RadKinds.lean`). -/
noncomputable def packets (x : Ctl) (emission : ℝ) : ℝ := emission / x.wgt

/-- Their mean energy: number times weight. -/
noncomputable def energy (x : Ctl) (emission : ℝ) : ℝ := packets x emission * x.wgt

end Nubhlight.ResumedWeights
