import Mathlib.Algebra.Order.Field.Basic

set_option autoImplicit false

/-!
# Model of time stepping and output scheduling

`step` (its time-step part, core/step.c:131-175) and the main loop (core/main.c:157-270). Everything else a step
does enters through the time-step proposals of the ranks. Floating point is replaced by an ordered field.
-/

namespace Nubhlight.TimeLoop

/-- Run parameters read by the loop: `tf, DTd, DTl, DTr, DNr` (core/input.c:55,166-169) and whether the code is
compiled with `RADIATION`. -/
structure Cfg (K : Type*) where
  tf : K
  DTd : K
  DTl : K
  DTr : K
  DNr : ℤ
  radiation : Bool

/-- Loop state: the globals `t, dt, nstep, tdump, tlog, trestart` and the local `dumpThisStep`
(core/main.c:157). `dt` is the same on all ranks because it comes out of `mpi_min` (core/mpi.c:600-604). -/
structure St (K : Type*) where
  t : K
  dt : K
  nstep : ℕ
  tdump : K
  tlog : K
  trestart : K
  dumped : Bool

/-- Output actions of the loop: `diag(DIAG_DUMP)`, `diag(DIAG_LOG)`, `restart_write(RESTART_TEMP)`,
`restart_write(RESTART_PERM)`, `diag(DIAG_FINAL)`, core/main.c:229-246,269-270. -/
inductive Ev
  | dump
  | log
  | restartTemp
  | restartPerm
  | final
  deriving DecidableEq

/-- Time-step proposals of one step: the value `ndt` on rank 0 and on the other ranks, i.e. what `advance`
returned or, with radiation, the smaller of light-crossing and cooling limit (core/step.c:91,134-137). -/
abbrev Proposal (K : Type*) := K × List K

variable {K : Type*} [Field K] [LinearOrder K]

/-- `SMALL`, core/decs.h. -/
def small : K := 1 / 10 ^ 20

/-- `SAFE`, core/decs.h. -/
def safe : K := 13 / 10

/-- Growth limit applied on each rank, core/step.c:149-151. -/
def capDt (dt ndt : K) : K := if ndt > safe * dt then safe * dt else ndt

/-- `mpi_min` of the limited proposals over all ranks, core/step.c:154-157, core/mpi.c:600-604. -/
def minDt (dt : K) (p : Proposal K) : K := (p.2.map (capDt dt)).foldl min (capDt dt p.1)

/-- Emergency minimum (radiation only), core/step.c:160-169; `dtsave` is the old `dt` (core/step.c:37). -/
def rescueDt (radiation : Bool) (dt new : K) : K :=
  if radiation = true ∧ new < small then small + dt / safe else new

/-- Shortening of the last step, core/step.c:172-174. -/
def clipDt (tf t dt : K) : K := if t + dt > tf then tf - t else dt

/-- Time and time-step part of `step`, core/step.c:131-174. -/
def stepTime (cfg : Cfg K) (s : St K) (p : Proposal K) : St K :=
  let t' := s.t + s.dt
  { s with t := t', dt := clipDt cfg.tf t' (rescueDt cfg.radiation s.dt (minDt s.dt p)) }

/-- `if (t >= tdump) {diag(DIAG_DUMP); tdump += DTd;}`, core/main.c:230-234. -/
def outDump (cfg : Cfg K) (s : St K) : St K × List Ev :=
  if s.t ≥ s.tdump then ({ s with dumped := true, tdump := s.tdump + cfg.DTd }, [.dump]) else (s, [])

/-- core/main.c:235-238. -/
def outLog (cfg : Cfg K) (s : St K) : St K × List Ev :=
  if s.t ≥ s.tlog then ({ s with tlog := s.tlog + cfg.DTl }, [.log]) else (s, [])

/-- core/main.c:239-241. -/
def outTemp (cfg : Cfg K) (s : St K) : List Ev :=
  if (s.nstep : ℤ) % cfg.DNr = 0 then [.restartTemp] else []

/-- core/main.c:242-245. -/
def outPerm (cfg : Cfg K) (s : St K) : St K × List Ev :=
  if s.t ≥ s.trestart then ({ s with trestart := s.trestart + cfg.DTr }, [.restartPerm]) else (s, [])

/-- One pass through the loop body, core/main.c:161-246. `none` is the integer division by zero of
`nstep % DNr` (core/main.c:239) when `DNr = 0`. -/
def iter (cfg : Cfg K) (s : St K) (p : Proposal K) : Option (St K × List Ev) :=
  let s1 := stepTime cfg { s with dumped := false } p
  let s2 := { s1 with nstep := s1.nstep + 1 }
  if s2.t < cfg.tf then
    if cfg.DNr = 0 then none
    else
      let a := outDump cfg s2
      let b := outLog cfg a.1
      let c := outPerm cfg b.1
      some (c.1, a.2 ++ b.2 ++ outTemp cfg b.1 ++ c.2)
  else some (s2, [])

/-- `while (t < tf)`, core/main.c:160, for as many passes as proposals are given. The trace lists, per pass, the
state at the end of the pass and the outputs made in it. -/
def run (cfg : Cfg K) : List (Proposal K) → St K → Option (List (St K × List Ev) × St K)
  | [], s => some ([], s)
  | p :: ps, s =>
    if s.t < cfg.tf then
      match iter cfg s p with
      | none => none
      | some (s', ev) =>
        match run cfg ps s' with
        | none => none
        | some (tr, sf) => some ((s', ev) :: tr, sf)
    else some ([], s)

/-- `if (dumpThisStep == 0) diag(DIAG_FINAL)`, core/main.c:269-270. -/
def finish (s : St K) : List Ev := if s.dumped = false then [.final] else []

/-- State on entering the loop of a fresh run: `t = 0` (core/main.c:301), `nstep = 0` (:280), next output times
one interval ahead (:335-337); the initial time step is the parameter or `cour*dt_light_min` (:323). -/
def start (cfg : Cfg K) (dt0 : K) : St K :=
  { t := 0, dt := dt0, nstep := 0, tdump := cfg.DTd, tlog := cfg.DTl, trestart := cfg.DTr, dumped := false }

/-- What a restart file written at the place of `restartTemp` in a pass restores: all loop variables
(core/io.c:1271-1293, 1561-1573); `restart_init` then enters the loop directly. The permanent restart file is
written before `trestart` is advanced too (core/main.c:243-244), so both hold the old `trestart`. -/
def saved (cfg : Cfg K) (s : St K) (p : Proposal K) : St K :=
  let s1 := stepTime cfg { s with dumped := false } p
  let s2 := { s1 with nstep := s1.nstep + 1 }
  { (outLog cfg (outDump cfg s2).1).1 with dumped := false }

end Nubhlight.TimeLoop
