import Verif.Model.ArrayIO

set_option autoImplicit false

/-!
# Starting from the fluid of another run

core/io.c `init_fluid_restart`, called by core/main.c:122-129 when the parameter `init_from_grmhd` names a file. HDF5 as in `ArrayIO`; opening a file or a dataset
that is not there gives an identifier with which the read fails and moves nothing. No status is looked at in `init_fluid_restart`.
-/

namespace Nubhlight.StartFluid

open ArrayIO

/-- A dataset: its dimensions and what is at each position. -/
structure Data (V : Type*) where
  dims : List ℕ
  val : ℕ → Option V

/-- A file: its datasets by name. -/
abbrev File (V : Type*) := String → Option (Data V)

/-- Names of the datasets `restart_write` creates, in builds with every option: the `WRITE_HDR`, `WRITE_GRID`, `WRITE_PRIM`, `WRITE_RADTYPEVEC` and `WRITE_ARRAY` of
core/io.c:1250-1514; the macros name the dataset as the variable, core/io.c:29-64. -/
def restartNames : List String :=
  ["version", "metric", "nulnutype", "electrons", "radiation", "nvar", "nvar_passive", "output_eosvars", "diagnostics_use_radtypes", "t", "tf", "nstep", "dump_id",
   "fdump_id", "dumptrace_id", "restart_id", "restart_perm_id", "dt", "lim", "failed", "DTd", "DTl", "DTr", "DNr", "DTp", "DTf", "tdump", "trestart", "tlog",
   "x1Min", "x1Max", "x2Min", "x2Max", "x3Min", "x3Max", "a", "Rin", "Rout", "Rout_vis", "hslope", "Reh", "Risco", "poly_xt", "poly_alpha", "mks_smooth", "mbh",
   "Mbh", "gam", "poly_K", "poly_gam", "eospath", "L_unit", "M_unit", "RHO_unit", "T_unit", "U_unit", "B_unit", "TEMP_unit", "tp_over_te", "Ne_unit",
   "Thetae_unit", "cour", "game", "gamp", "fel0", "tptemin", "tptemax", "numin", "numax", "tune_emiss", "tune_scatt", "t_tune_emiss", "t_tune_scatt",
   "dt_tune_emiss", "dt_tune_scatt", "made_tune_proc", "abs_tune_proc", "scatt_tune_proc", "thetae_max", "sigma_max", "kdotk_tol", "Nph_to_track", "Rout_rad",
   "lepton_tot", "lepton_last", "lepton_lost", "passive_type", "P", "Nsph", "nph", "Nem", "Nabs", "Nsc", "Nem_phys", "Nabs_phys", "Jrad", "dtau_avg",
   "en_int_avg", "nuLnu", "particle_offsets", "particle_counts", "superphotons"]

/-- Names of the datasets `dump` creates, full dumps in builds with every option, core/io.c:753-1191. -/
def dumpNames : List String :=
  ["version", "metric", "tracers", "eos", "gamma_fallback", "nulnutype", "derefine_poles", "full_dump", "electrons", "radiation", "nvar", "nvar_passive",
   "output_eosvars", "diagnostics_use_radtypes", "t", "tf", "nstep", "N1tot", "N2tot", "N3tot", "startx[1]", "startx[2]", "startx[3]", "dx[1]", "dx[2]", "dx[3]",
   "Rin", "Rout", "Rout_vis", "Reh", "Risco", "hslope", "a", "poly_xt", "poly_alpha", "mks_smooth", "Mbh", "mbh", "Rout_rad", "gam", "poly_K", "poly_gam",
   "eospath", "game", "gamp", "L_unit", "M_unit", "RHO_unit", "T_unit", "U_unit", "B_unit", "TEMP_unit", "tp_over_te", "Ne_unit", "Thetae_unit", "cour", "DTd",
   "DTl", "DTr", "DNr", "DTp", "DTf", "dump_cnt", "dump_id", "dt", "failed", "maxnscatt", "nubins", "nth", "nphi", "nubins_spec", "numin", "numax",
   "neutrino_oscillations", "force_equipartition", "local_angular_distributions", "rz_histograms", "passive_type", "P", "divb", "PRESS", "ENT", "TEMP", "CS2",
   "Qvisc", "Qcoul", "fail_save", "jcon", "Nsph", "nph", "Jrad", "dtau_scatt", "dtau_tot", "dtau_avg", "Nem", "Nabs", "Nsc", "tau_cool", "Rmunu", "Nem_phys",
   "Nabs_phys", "radG_int", "nuLnu", "local_angles", "Gnu", "local_Ns", "local_wsqr", "local_moments", "local_osc_count", "rz_r_orig_hist", "rz_z_orig_hist",
   "osc_rz_r_orig_hist", "osc_rz_z_orig_hist"]

/-- The dataset of the primitives as all ranks write it: `WRITE_PRIM(P, …)`, core/io.c:44-46, 908 (`TYPE_FLOAT`), 1403 (`TYPE_DBL`). -/
def prims {V : Type*} (rnd : V → V) (kind : Kind) (D : Div) (g m : ℕ) (mem : ℕ × ℕ × ℕ → ℕ → V) (order : List (ℕ × ℕ × ℕ)) : Data V where
  dims := [D.N1, D.N2, D.N3, m]
  val := writeAll rnd kind (vecSlab D g m) mem order fun _ => none

/-- A file with the datasets of `names`, of which `P` holds `p` and each other one something. -/
def written {V : Type*} (names : List String) (p : Data V) (rest : String → Data V) : File V :=
  fun n => if n ∈ names then some (if n = "P" then p else rest n) else none

/-- The name under which the fluid is looked for, core/io.c:1815. -/
def soughtName : String := "p"

/-- `P` of one rank after `init_fluid_restart`, core/io.c:1794-1856; `file = none` is a file that cannot be opened (line 1808, not checked). Before it `zero_arrays` has
set `P` to zero in every zone, core/main.c:296, core/coord.c:552-565. The two hyperslabs of lines 1816-1838 are those of `vecSlab`. The outcome `none` is a dataset of
other dimensions than lines 1797 and 1818 say, for which what HDF5 reads is left open. -/
def initFluid {V : Type*} [Zero V] (fill : V) (D : Div) (g m : ℕ) (file : Option (File V)) (c : ℕ × ℕ × ℕ) : Option (ℕ → V) :=
  match file.bind fun f => f soughtName with
  | none => some fun _ => 0
  | some d => if d.dims = [D.N1, D.N2, D.N3, m] then some (readRank fill (vecSlab D g m c) d.val fun _ => 0) else none

/-- `P` of one rank given to `init_final`, core/main.c:116-131: of the problem (its `init_prob`, with `init_electrons` where there are electrons) if `init_from_grmhd` is
`No`, else from the file of that name. -/
def initialPrims {V : Type*} [Zero V] (fill : V) (D : Div) (g m : ℕ) (from_grmhd : String) (disk : String → Option (File V)) (prob : ℕ × ℕ × ℕ → ℕ → V)
    (c : ℕ × ℕ × ℕ) : Option (ℕ → V) :=
  if from_grmhd = "No" then some (prob c) else initFluid fill D g m (disk from_grmhd) c

end Nubhlight.StartFluid
