import Verif.Model.Control
import Verif.Model.MessageRun
import Verif.Model.PhotonMessages
import Verif.Model.SumMessages
import Verif.Model.TimeLoop
import Mathlib.Logic.Equiv.Basic

set_option autoImplicit false

/-!
# The main loop as run by a rank: core/main.c:157-270 with core/step.c:26-175

All messages, barriers, reductions and files of a run in the order of the code, with the decisions made on the way, in the setting of `Control`. Variables
from which decisions common to all ranks are made (`t`, `dt`, `nstep`, times of output and tuning, lepton numbers) are kept apart in `Shared`, each rank
having its own copy. What ranks compute between messages is left open: it can read everything and change everything but `Shared`.

Left out: `EXIT_ON_INIT`, `NO_GRMHD_UPDATE`, `KILL_ALL_PACKETS`, `ESTIMATE_THETAE` (does not compile), `RECORD_DT_MIN`, and `exit` in the physics (failed
root finding, memory, files). Collective HDF5 calls for one file are one operation. `dt_cool` is a number
(infinity if no zone cools, core/rad_utils.c:714).
-/

namespace Nubhlight.MainLoop

open Bounds Messages Control

/-- Compile-time choices besides `RADIATION`: `RADIATION == RADTYPE_NEUTRINOS`, `ELECTRONS`, oscillations (core/step.c:30-31), `EOS == EOS_TYPE_TABLE`, `TRACERS`, `TRACK_PH` with
`Nph_to_track > 0`, `FCOUNT_NBINS`, `RAD_NUM_TYPES`, `NDIM+NRADCOMP`. -/
structure Opts where
  neutrinos : Bool
  electrons : Bool
  oscillations : Bool
  tables : Bool
  tracers : Bool
  track : Bool
  nbins : ℕ
  ntypes : ℕ
  ncomp : ℕ

/-- Variables decisions are made from: the clock, `dtsave`, `dt_osc`, `dt_cool`, `t_tune_emiss`, `lepton_tot`, `lepton_last`, `lepton_lost`, `lepton_gas`,
`lepton_rad`; and the files written so far. -/
structure Shared (K : Type*) where
  clk : TimeLoop.St K
  dtsave : K
  dtOsc : K
  dtCool : K
  tTune : K
  lepTot : K
  lepLast : K
  lepLost : K
  lepGas : K
  lepRad : K
  out : List TimeLoop.Ev

/-- Memory of a rank. -/
structure Mem (K τ : Type*) where
  sh : Shared K
  own : τ

/-- Messages: zones, superphotons and their numbers, arrays to be summed. -/
inductive Mess (K : Type*)
  | zones (Z : Zones K)
  | packets (m : PhotonMessages.Msg K)
  | array (A : SumMessages.Arr (ℕ → K))

/-- See `Mess`. -/
def Mess.toZones {K : Type*} : Mess K → Option (Zones K)
  | .zones Z => some Z
  | _ => none

/-- See `Mess`. -/
def Mess.toPackets {K : Type*} : Mess K → Option (PhotonMessages.Msg K)
  | .packets m => some m
  | _ => none

/-- See `Mess`. -/
def Mess.toArray {K : Type*} : Mess K → Option (SumMessages.Arr (ℕ → K))
  | .array A => some A
  | _ => none

/-- An instruction on a part of the memory, with ranks named differently and messages among others. -/
def embed {R R' σ τ M M' : Type*} (e : R ≃ R') (get : τ → σ) (set : τ → σ → τ) (inj : M → M') (proj : M' → Option M) (r : R) : Instr R' σ M → Instr R τ M'
  | .comp f => .comp fun x => set x (f (get x))
  | .xchg dst src tag pay store => .xchg (dst.map e.symm) (src.map e.symm) tag (fun x => inj (pay (get x))) fun x m => set x (store (get x) (m.bind proj))
  | .coll kind f => .coll kind fun W => set (W r) (f fun o => get (W (e.symm o)))

variable {K : Type*} [Field K] [LinearOrder K]

/-- `bound_prim` as instructions common to all ranks (`Messages.boundProg`), core/bounds.c:13-247. -/
def boundList (d1 d2 d3 : Dim) (fill : Fin 3 → Bool → ℤ → ℤ → (ℤ → Cell K) → ℤ → Cell K) (chk : Ranks d1 d2 d3 → Zones K → Zones K) :
    List (Ranks d1 d2 d3 → Instr (Ranks d1 d2 d3) (Zones K) (Zones K)) :=
  let side (d : Fin 3) (upper : Bool) : List (Ranks d1 d2 d3 → Instr (Ranks d1 d2 d3) (Zones K) (Zones K)) :=
    [fun r => .comp (fillSide d1 d2 d3 d upper (fill d upper) r), sync d1 d2 d3 d upper true, sync d1 d2 d3 d upper false]
  [barrier] ++ side 0 false ++ side 0 true ++ side 1 false ++ side 1 true ++ side 2 false ++ side 2 true ++ [fun r => .comp (chk r), barrier]

/-- `sync_radG` with all components, core/mpi.c:285-314; the `memset` as in `SumMessages.wipedG`. -/
def sumG (d1 d2 d3 : Dim) (ncomp : ℕ) : List (Ranks d1 d2 d3 → Instr (Ranks d1 d2 d3) (SumMessages.Mem (ℕ → K)) (SumMessages.Arr (ℕ → K))) :=
  [fun _ => .comp fun m : SumMessages.Mem (ℕ → K) => ⟨m.arr, fun i j k mu => if SumMessages.wipedG d1 d2 d3 ncomp mu i j k then 0 else m.buf i j k mu⟩]
    ++ SumMessages.direction d1 d2 d3 0 ++ SumMessages.direction d1 d2 d3 1 ++ SumMessages.direction d1 d2 d3 2

/-- Run parameters, and what ranks do between messages. Places in the code are given by file and line (after those of the calls, if there are several).
`work`: computations; `red`: what a rank makes of a reduction, from the memory of all ranks; `part`: what a rank contributes to a reduction whose result
decisions depend on; `again`: core/fixup.c:355; `many`: `step_tot > 1.e8`, core/main.c:213; `complain`: core/diag.c:548, from `nstep`, `lepton_last`,
`lepton_tot`. `dtLight` is the same on all ranks (core/coord.c:536). `root` has rank 0. -/
structure Setup (K : Type*) (d1 d2 d3 : Dim) (g : PhotonSync.Grid K) (τ : Type*) where
  cfg : TimeLoop.Cfg K
  o : Opts
  cour : K
  courCool : K
  dtLight : K
  dtTune : K
  DTp : ℤ
  fill : Fin 3 → Bool → ℤ → ℤ → (ℤ → Cell K) → ℤ → Cell K
  chk : Ranks d1 d2 d3 → Zones K → Zones K
  A : Arrays τ K
  e : Ranks d1 d2 d3 ≃ PhotonSync.Rank g
  getPost : τ → PhotonMessages.Post K
  setPost : τ → PhotonMessages.Post K → τ
  getSum : Fin 4 → τ → SumMessages.Mem (ℕ → K)
  setSum : Fin 4 → τ → SumMessages.Mem (ℕ → K) → τ
  work : String → Ranks d1 d2 d3 → Shared K → τ → τ
  red : String → Ranks d1 d2 d3 → (Ranks d1 d2 d3 → Mem K τ) → τ
  part : String → Ranks d1 d2 d3 → τ → K
  again : String → Ranks d1 d2 d3 → τ → Bool
  many : τ → Bool
  complain : ℕ → K → K → Bool
  root : Ranks d1 d2 d3

section code
variable {d1 d2 d3 : Dim} {g : PhotonSync.Grid K} {τ : Type*} (S : Setup K d1 d2 d3 g τ)

/-- Instructions of the run. -/
abbrev Ins (K : Type*) (d1 d2 d3 : Dim) (τ : Type*) := Ranks d1 d2 d3 → Instr (Ranks d1 d2 d3) (Mem K τ) (Mess K)

/-- Code of the run. -/
abbrev Prg (K : Type*) (d1 d2 d3 : Dim) (τ : Type*) := Code (Ranks d1 d2 d3) (Mem K τ) (Mess K)

/-- A computation of each rank. -/
def work (at_ : String) : Ins K d1 d2 d3 τ := fun r => .comp fun m => { m with own := S.work at_ r m.sh m.own }

/-- A change of variables decisions are made from, using only those. -/
def common (f : Shared K → Shared K) : Ins K d1 d2 d3 τ := fun _ => .comp fun m => { m with sh := f m.sh }

/-- A reduction. Kinds: 0 barrier, 1 `mpi_max`, 2 `mpi_min`, 3 `mpi_reduce`, 4 `mpi_reduce_int`, 5 `mpi_io_reduce`, 6 `mpi_io_max`,
7 `mpi_dbl_allreduce_array`, 8 collective file operations, core/mpi.c:588-675. -/
def reduce (kind : ℕ) (at_ : String) : Ins K d1 d2 d3 τ := fun r => .coll kind fun W => { W r with own := S.red at_ r W }

/-- A reduction to a variable decisions are made from: all ranks get the same value. -/
def reduceTo (kind : ℕ) (f : (Ranks d1 d2 d3 → Mem K τ) → K) (set : K → Shared K → Shared K) : Ins K d1 d2 d3 τ :=
  fun r => .coll kind fun W => { W r with sh := set (f W) (W r).sh }

/-- The least over all ranks, core/mpi.c:600-604. -/
def least (f : Ranks d1 d2 d3 → K) : K :=
  match (allRanks d1 d2 d3).map f with
  | [] => 0
  | a :: l => l.foldl min a

/-- The sum over all ranks, core/mpi.c:606-610. -/
def total (f : Ranks d1 d2 d3 → K) : K := ((allRanks d1 d2 d3).map f).sum

/-- `mpi_barrier`, core/mpi.c:675. -/
def wall : Ins K d1 d2 d3 τ := fun r => barrier r

/-- A computation between `timer_start` and `timer_stop`, core/timing.c:26-44. -/
def timed (at_ : String) : Prg K d1 d2 d3 τ := straight [wall, work S at_, wall]

/-- `bound_prim` of one of the two arrays. -/
def bound (get : τ → Zones K) (set : τ → Zones K → τ) : Prg K d1 d2 d3 τ :=
  straight ((boundList d1 d2 d3 S.fill S.chk).map fun I r =>
    embed (Equiv.refl _) (fun m : Mem K τ => get m.own) (fun m Z => { m with own := set m.own Z }) Mess.zones Mess.toZones r (I r))

/-- `advance`, core/step.c:177-228, with `fluxcalc`, 283-354. -/
def advance (c : String) : Prg K d1 d2 d3 τ :=
  straight [work S (c ++ "/step.c:183"), wall, work S (c ++ "/step.c:283"), reduce S 1 (c ++ "/step.c:345"), reduce S 1 (c ++ "/step.c:346"),
    reduce S 1 (c ++ "/step.c:347"), work S (c ++ "/step.c:188"), wall, wall, work S (c ++ "/step.c:197"), wall, wall, work S (c ++ "/step.c:209"), wall]

/-- `fixup`, core/fixup.c:15-20. -/
def fixup (c : String) : Prg K d1 d2 d3 τ := timed S (c ++ "/fixup.c:17")

/-- `fixup_utoprim`, core/fixup.c:264-359: `fixup` again if all zones of the rank are given up. -/
def repair (c : String) : Prg K d1 d2 d3 τ :=
  straight [wall, work S (c ++ "/fixup.c:270")] ++ [.ite true (fun r m => S.again c r m.own) (fixup S (c ++ "/fixup.c:356")) []] ++ straight [wall]

/-- `fixup`, `fixup_utoprim`, and with electrons `heat_electrons` before and `fixup_electrons`, `coulomb`, `fixup_electrons` after, core/step.c:50-61 and
92-103; core/electrons.c:47-55, 142-215, 276-281. -/
def mend (c : String) : Prg K d1 d2 d3 τ :=
  (if S.o.electrons then timed S (c ++ "/electrons.c:50") else []) ++ fixup S c ++ repair S c
    ++ (if S.o.electrons then timed S (c ++ "/electrons.c:278") ++
          (if S.cfg.radiation then timed S (c ++ "/electrons.c:147") ++ timed S (c ++ "/2/electrons.c:278") else []) else [])

/-- `get_dt_oscillations`, core/oscillations.c:13-27. -/
def oscTime : Prg K d1 d2 d3 τ :=
  straight [wall, work S "oscillations.c:15", reduceTo 2 (fun W => least fun o => S.part "oscillations.c:24" o (W o).own) (fun x s => { s with dtOsc := x }),
    wall]

/-- `bound_superphotons`, core/bounds.c:344-435. -/
def packets : Prg K d1 d2 d3 τ :=
  let sums (n : Fin 4) (I : Ranks d1 d2 d3 → Instr (Ranks d1 d2 d3) (SumMessages.Mem (ℕ → K)) (SumMessages.Arr (ℕ → K))) : Ins K d1 d2 d3 τ := fun r =>
    embed (Equiv.refl _) (fun m : Mem K τ => S.getSum n m.own) (fun m x => { m with own := S.setSum n m.own x }) Mess.array Mess.toArray r (I r)
  straight ([wall, work S "bounds.c:347"]
    ++ ((PhotonMessages.exchange g).map fun I r =>
        embed S.e (fun m : Mem K τ => S.getPost m.own) (fun m x => { m with own := S.setPost m.own x }) Mess.packets Mess.toPackets r (I (S.e r)))
    ++ [work S "mpi.c:568"] ++ (sumG d1 d2 d3 S.o.ncomp).map (sums 0) ++ (SumMessages.sumClear d1 d2 d3).map (sums 1)
    ++ (SumMessages.sumClear d1 d2 d3).map (sums 2) ++ (SumMessages.sumClear d1 d2 d3).map (sums 3) ++ [wall])

/-- `accumulate_local_angles` and `oscillate`, core/oscillations.c:29-71, 185-241. -/
def oscillate : Prg K d1 d2 d3 τ :=
  straight [wall, work S "oscillations.c:31", reduce S 7 "oscillations.c:61", reduce S 7 "oscillations.c:62", reduce S 7 "oscillations.c:63",
    work S "oscillations.c:67", wall, wall, work S "oscillations.c:187", wall]

/-- Radiation between predictor and corrector, core/step.c:65-88. -/
def radiate : Prg K d1 d2 d3 τ :=
  timed S "rad_utils.c:280" ++ timed S "make_superphotons.c:48" ++ timed S "push_superphotons.c:94" ++ timed S "interact.c:120" ++ packets S
    ++ (if S.o.oscillations then [.ite false (fun _ m => decide (m.sh.dtOsc ≤ m.sh.clk.dt)) (oscillate S) []] else [])

/-- After the corrector, core/step.c:106-125. -/
def exert : Prg K d1 d2 d3 τ :=
  timed S "step.c:231" ++ fixup S "step.c:109" ++ repair S "step.c:110"
    ++ (if S.o.electrons then straight [work S "step.c:112"] ++ timed S "step.c:113/electrons.c:278" else []) ++ bound S S.A.getP S.A.setP
    ++ straight [work S "step.c:118"]

/-- `ndt` of a rank before the limit on growth, core/step.c:91, 134-137. -/
def proposal (W : Ranks d1 d2 d3 → Mem K τ) (o : Ranks d1 d2 d3) : K :=
  if S.cfg.radiation then min (S.cour * S.dtLight) (S.courCool * (W o).sh.dtCool) else S.part "step.c:91" o (W o).own

/-- Time and next step, core/step.c:131-174. -/
def tick : Prg K d1 d2 d3 τ :=
  straight ([common fun s => { s with clk := { s.clk with t := s.clk.t + s.clk.dt } }]
    ++ (if S.cfg.radiation then [work S "rad_utils.c:715",
          reduceTo 2 (fun W => least fun o => S.part "rad_utils.c:744" o (W o).own) (fun x s => { s with dtCool := x })] else [])
    ++ [reduceTo 2 (fun W => least fun o => TimeLoop.capDt (W o).sh.clk.dt (proposal S W o)) (fun x s => { s with clk := { s.clk with dt := x } }),
        common fun s => { s with clk := { s.clk with dt := TimeLoop.clipDt S.cfg.tf s.clk.t (TimeLoop.rescueDt S.cfg.radiation s.dtsave s.clk.dt) } }])

/-- `step`, core/step.c:26-175. -/
def step : Prg K d1 d2 d3 τ :=
  (if S.cfg.radiation && S.o.oscillations then oscTime S else [])
    ++ straight [common (fun s => { s with dtsave := s.clk.dt }), work S "step.c:40"]
    ++ advance S "step.c:49" ++ mend S "step.c:51" ++ bound S S.A.getH S.A.setH
    ++ (if S.cfg.radiation then radiate S else [])
    ++ advance S "step.c:91" ++ mend S "step.c:93" ++ bound S S.A.getP S.A.setP
    ++ (if S.cfg.radiation then exert S else [])
    ++ straight [work S "step.c:128"] ++ tick S

/-- `diag`, core/diag.c:52-324, with `dump` (core/io.c:734-1210) or `track_ph` (core/io.c:305-385). -/
def diag (c : String) (ev : TimeLoop.Ev) : Prg K d1 d2 d3 τ :=
  straight ([common fun s => { s with out := s.out ++ [ev] }]
    ++ [work S (c ++ "/diag.c:100"), reduce S 5 (c ++ "/diag.c:124"), reduce S 5 (c ++ "/diag.c:125"), reduce S 5 (c ++ "/diag.c:126"),
      reduce S 6 (c ++ "/diag.c:127"), work S (c ++ "/diag.c:130"), reduce S 5 (c ++ "/diag.c:183"), reduce S 5 (c ++ "/diag.c:184"),
      reduce S 5 (c ++ "/diag.c:185"), reduce S 5 (c ++ "/diag.c:186"), reduce S 5 (c ++ "/diag.c:187"), reduce S 5 (c ++ "/diag.c:188"),
      reduce S 3 (c ++ "/diag.c:189"), reduce S 3 (c ++ "/diag.c:190"), reduce S 3 (c ++ "/diag.c:191"), reduce S 3 (c ++ "/diag.c:193"),
      reduce S 3 (c ++ "/diag.c:194")]
    ++ (if S.cfg.radiation then [reduce S 3 (c ++ "/diag.c:196"), work S (c ++ "/diag.c:197"), reduce S 3 (c ++ "/diag.c:221")] ++
          (if S.o.electrons then [work S (c ++ "/diag.c:225"), reduce S 4 (c ++ "/diag.c:231"), reduce S 3 (c ++ "/diag.c:232")] else []) else [])
    ++ (if ev = .log then [] else [wall, reduce S 8 (c ++ "/io.c:734"), wall]
          ++ (if S.cfg.radiation && S.o.tracers then [wall, reduce S 8 (c ++ "/io.c:1946"), wall] else []) ++ [work S (c ++ "/diag.c:242")])
    ++ (if ev = .dump then [] else work S (c ++ "/diag.c:253") :: (if S.cfg.radiation && S.o.track then [reduce S 8 (c ++ "/io.c:343")] else [])))

/-- `restart_write`, core/io.c:1212-1535. -/
def restart (c : String) (ev : TimeLoop.Ev) : Prg K d1 d2 d3 τ :=
  straight [common (fun s => { s with out := s.out ++ [ev] }), wall, reduce S 8 (c ++ "/io.c:1212"), wall]

/-- Counts of a step, core/main.c:169-185. -/
def counts : Prg K d1 d2 d3 τ :=
  straight [reduce S 4 "main.c:170", reduce S 4 "main.c:171", reduce S 4 "main.c:172", reduce S 4 "main.c:173", reduce S 4 "main.c:174", reduce S 4 "main.c:175",
    reduce S 4 "main.c:176", reduce S 4 "main.c:177", reduce S 4 "main.c:178", reduce S 4 "main.c:179", reduce S 1 "main.c:180", reduce S 2 "main.c:181",
    work S "main.c:184"]

/-- `update_superphoton_resolution`, core/rad_utils.c:77-158, with `set_weight`, core/make_superphotons.c:339. -/
def tune : Prg K d1 d2 d3 τ :=
  straight [work S "rad_utils.c:87"]
    ++ [.ite false (fun _ m => decide (m.sh.clk.t ≥ m.sh.tTune))
        (straight [reduce S 4 "rad_utils.c:98", reduce S 4 "rad_utils.c:99", work S "rad_utils.c:101", common (fun s => { s with tTune := s.tTune + S.dtTune }),
          work S "make_superphotons.c:325", reduce S 3 "make_superphotons.c:339", work S "rad_utils.c:125"]) []]
    ++ straight [reduce S 4 "rad_utils.c:128", work S "rad_utils.c:129"]

/-- core/main.c:223 and `count_leptons`, core/diag.c:502-569. -/
def leptons : Prg K d1 d2 d3 τ :=
  straight [reduce S 3 "main.c:223", wall,
      reduceTo 3 (fun W => total fun o => S.part "diag.c:504" o (W o).own) (fun x s => { s with lepLast := s.lepTot, lepLost := s.lepLost + x }),
      work S "diag.c:513", reduceTo 3 (fun W => total fun o => S.part "diag.c:530" o (W o).own) (fun x s => { s with lepGas := x }),
      work S "diag.c:531", reduceTo 3 (fun W => total fun o => S.part "diag.c:542" o (W o).own) (fun x s => { s with lepRad := x }),
      common (fun s => { s with lepTot := s.lepRad + s.lepGas + s.lepLost })]
    ++ [.exit false fun _ m => S.complain m.sh.clk.nstep m.sh.lepLast m.sh.lepTot] ++ straight [wall]

/-- Output at set times, core/main.c:228-246. `nstep % DNr` with `DNr = 0` ends the program. -/
def outputs : Prg K d1 d2 d3 τ :=
  [.ite false (fun _ m => decide (m.sh.clk.t < S.cfg.tf))
    ([.ite false (fun _ m => decide (m.sh.clk.t ≥ m.sh.clk.tdump))
        (straight [common fun s => { s with clk := { s.clk with dumped := true } }] ++ diag S "main.c:232" .dump
          ++ straight [common fun s => { s with clk := { s.clk with tdump := s.clk.tdump + S.cfg.DTd } }]) [],
      .ite false (fun _ m => decide (m.sh.clk.t ≥ m.sh.clk.tlog))
        (diag S "main.c:236" .log ++ straight [common fun s => { s with clk := { s.clk with tlog := s.clk.tlog + S.cfg.DTl } }]) [],
      .exit false (fun _ _ => decide (S.cfg.DNr = 0)),
      .ite false (fun _ m => decide ((m.sh.clk.nstep : ℤ) % S.cfg.DNr = 0)) (restart S "main.c:240" .restartTemp) [],
      .ite false (fun _ m => decide (m.sh.clk.t ≥ m.sh.clk.trestart))
        (restart S "main.c:243" .restartPerm ++ straight [common fun s => { s with clk := { s.clk with trestart := s.clk.trestart + S.cfg.DTr } }]) []])
    []]

/-- core/main.c:248-266, with `print_root_fcounts` (core/root_finding.c:322-329) and `print_rad_types` (core/diag.c:622-660). `nstep % DTp` with `DTp = 0` ends
the program. -/
def report : Prg K d1 d2 d3 τ :=
  straight [work S "main.c:248", wall] ++
  [.exit false (fun _ _ => decide (S.DTp = 0)),
    .ite false (fun _ m => decide ((m.sh.clk.nstep : ℤ) % S.DTp = 0))
      (straight ((if S.o.tables then List.replicate S.o.nbins (reduce S 3 "root_finding.c:328") else [])
        ++ (if S.cfg.radiation && S.o.neutrinos then [wall, work S "diag.c:624"] ++ List.replicate S.o.ntypes (reduce S 3 "diag.c:637") ++ [wall] else []))) []]

/-- One pass of the main loop, core/main.c:161-266. -/
def body : Prg K d1 d2 d3 τ :=
  straight [common (fun s => { s with clk := { s.clk with dumped := false } }), wall] ++ step S
    ++ straight [common fun s => { s with clk := { s.clk with nstep := s.clk.nstep + 1 } }]
    ++ (if S.cfg.radiation then counts S else []) ++ straight [wall]
    ++ (if S.cfg.radiation then [.exit true fun r m => decide (r = S.root) && S.many m.own] else [])
    ++ (if S.cfg.radiation then tune S ++ (if S.o.neutrinos then leptons S else []) else [])
    ++ outputs S ++ report S

/-- The main loop and what follows it, core/main.c:160-270. -/
def main : Prg K d1 d2 d3 τ :=
  [.loop (fun _ m => decide (m.sh.clk.t < S.cfg.tf)) (body S),
    .ite false (fun _ m => decide (m.sh.clk.dumped = false)) (diag S "main.c:270" .final) []]

end code

end Nubhlight.MainLoop
