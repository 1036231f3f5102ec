import Verif.Model.Rounding

set_option autoImplicit false

/-! # Model of the time loop in floating-point arithmetic

As `Model/TimeLoop.lean`, with every operation rounded by `rnd`. Output is left out. -/

namespace Nubhlight.FloatTime

open Rounding

/-- `tf`, `SAFE`, `SMALL` (core/decs.h:87, 94) and whether there is radiation. -/
structure Cfg where
  tf : ℚ
  safe : ℚ
  small : ℚ
  radiation : Bool

/-- `t` and `dt`. -/
structure St where
  t : ℚ
  dt : ℚ

/-- Growth limit of a rank, core/step.c:149-151. -/
def capDt (rnd : ℚ → ℚ) (cfg : Cfg) (dt ndt : ℚ) : ℚ := if ndt > rnd (cfg.safe * dt) then rnd (cfg.safe * dt) else ndt

/-- `mpi_min` over the ranks, core/step.c:154-157: the proposal of rank 0 and those of the others. -/
def minDt (rnd : ℚ → ℚ) (cfg : Cfg) (dt : ℚ) (p : ℚ × List ℚ) : ℚ := (p.2.map (capDt rnd cfg dt)).foldl min (capDt rnd cfg dt p.1)

/-- core/step.c:160-169. -/
def rescueDt (rnd : ℚ → ℚ) (cfg : Cfg) (dt new : ℚ) : ℚ :=
  if cfg.radiation = true ∧ new < cfg.small then rnd (cfg.small + rnd (dt / cfg.safe)) else new

/-- core/step.c:172-174. -/
def clipDt (rnd : ℚ → ℚ) (cfg : Cfg) (t dt : ℚ) : ℚ := if rnd (t + dt) > cfg.tf then rnd (cfg.tf - t) else dt

/-- Time and time step in `step`, core/step.c:131-174. -/
def step (rnd : ℚ → ℚ) (cfg : Cfg) (s : St) (p : ℚ × List ℚ) : St :=
  let t := rnd (s.t + s.dt)
  ⟨t, clipDt rnd cfg t (rescueDt rnd cfg s.dt (minDt rnd cfg s.dt p))⟩

/-- `while (t < tf)`, core/main.c:160, for as many steps as there are proposals: the states after each step. -/
def run (rnd : ℚ → ℚ) (cfg : Cfg) : List (ℚ × List ℚ) → St → List St
  | [], _ => []
  | p :: ps, s => if s.t < cfg.tf then step rnd cfg s p :: run rnd cfg ps (step rnd cfg s p) else []

/-- The state in the end. -/
def final (rnd : ℚ → ℚ) (cfg : Cfg) (ps : List (ℚ × List ℚ)) (s : St) : St := (run rnd cfg ps s).getLastD s

end Nubhlight.FloatTime
