import Mathlib.Logic.Basic
import Mathlib.Data.List.Basic

set_option autoImplicit false

/-! # Which dumps the analysis can load

`dump` and `dump_grid` of core/io.c as the sets of datasets they write, `load_hdr`, `load_geom`, `load_dump` and `get_dumps_full` of script/analysis/hdf5_to_dict.py as what they ask for. A dataset that
is asked for and is not there is an error (`KeyError`), here `none`. Contents of arrays are left out (C191-C193 treat the vectors computed from them), as are the datasets that are always written and
of which no build lacks one (times, numbers of zones, spacings); for header entries on which the reader decides, the value is kept. -/

namespace Nubhlight.DumpRead

/-- `RADIATION`. -/
inductive Rad | off | light | neutrinos
  deriving DecidableEq, Repr

/-- `EOS`. -/
inductive Eos | gamma | polytrope | table
  deriving DecidableEq, Repr

/-- Build options, and whether the number of the dump is a multiple of `DTf` (core/io.c:767). -/
structure Cfg where
  mks : Bool
  rad : Rad
  electrons : Bool
  eos : Eos
  eosvars : Bool
  fallback : Bool
  oscillations : Bool
  localAngles : Bool
  rz : Bool
  full : Bool
  deriving DecidableEq, Repr

/-- What script/config.py leaves possible: electrons only with the ideal gas (393-396), variables of the equation of state written out unless it is the ideal gas (418-421), and the options on
oscillations, angles and histograms only with radiation (314-366, 423-432). -/
def Cfg.Valid (c : Cfg) : Prop :=
  (c.electrons = true → c.eos = .gamma) ∧ (c.eos ≠ .gamma → c.eosvars = true) ∧ (c.rad = .off → c.oscillations = false ∧ c.localAngles = false ∧ c.rz = false)

instance (c : Cfg) : Decidable c.Valid := by unfold Cfg.Valid; infer_instance

/-- Names of datasets that occur in the program or the reader, those of the grid file last. -/
inductive Name
  | metric | eos | electrons | radiation | output_eosvars | full_dump | FULL_DUMP | neutrino_oscillations | local_angular_distributions
  | derefine_poles | Rin | Rout | Rout_vis | Reh | Risco | hslope | a | poly_xt | poly_alpha | mks_smooth | Mbh | mbh | Rout_rad
  | gam | poly_K | poly_gam | eospath | game | gamp
  | L_unit | M_unit | RHO_unit | T_unit | U_unit | B_unit | TEMP_unit | tp_over_te | Ne_unit | Thetae_unit
  | cour | DTd | DTl | DTr | DTp | tf | maxnscatt | nubins | numin | numax
  | P | divb | PRESS | ENT | TEMP | CS2 | SC2 | Qvisc | Qcoul | fail_save | jcon
  | Nsph | nph | Jrad | dtau_scatt | dtau_tot | dtau_avg | Nem | Nabs | Nsc | tau_cool | Rmunu | Nem_phys | Nabs_phys | radG_int | nuLnu
  | local_angles | Gnu | local_Ns | local_wsqr | local_moments | local_osc_count
  | rz_r_orig_hist | rz_z_orig_hist | osc_rz_r_orig_hist | osc_rz_z_orig_hist
  | gcov | gcon | gdet | alpha | Xharm | Xcart | XFharm | XFcart | Lambda_h2cart_con | Lambda_h2cart_cov
  | Xbl | Lambda_h2bl_con | Lambda_h2bl_cov | Lambda_bl2cart_con | Lambda_bl2cart_cov | Gamma
  deriving DecidableEq, Repr

/-- `NEED_UNITS`, core/decs.h:301. -/
def needUnits (c : Cfg) : Bool := decide (c.rad ≠ .off) || decide (c.eos = .table)

/-- The datasets of a dump and of the grid file, core/io.c:753-1197 and 406-728. -/
def written (c : Cfg) : Name → Bool
  | .metric | .eos | .electrons | .radiation | .output_eosvars | .full_dump => true                                       -- 753-778
  | .FULL_DUMP | .SC2 => false                                                                                           -- no such dataset
  | .neutrino_oscillations | .local_angular_distributions => decide (c.rad ≠ .off)                                       -- 881-886
  | .derefine_poles | .Rin | .Rout | .Rout_vis | .Reh | .Risco | .hslope | .a | .poly_xt | .poly_alpha | .mks_smooth => c.mks -- 762-765, 803-813
  | .Mbh | .mbh => c.mks && needUnits c                                                                                  -- 814-817
  | .Rout_rad => c.mks && decide (c.rad ≠ .off)                                                                          -- 818-820
  | .gam => decide (c.eos = .gamma) || c.fallback                                                                        -- 823-825
  | .poly_K | .poly_gam => decide (c.eos = .polytrope)                                                                   -- 826-829
  | .eospath => decide (c.eos = .table)                                                                                  -- 830-832
  | .game | .gamp => c.electrons                                                                                         -- 834-837
  | .L_unit | .M_unit | .RHO_unit | .T_unit | .U_unit | .B_unit => needUnits c                                           -- 839-845
  | .TEMP_unit => needUnits c && decide (c.eos = .table)                                                                 -- 846-848
  | .tp_over_te | .Ne_unit | .Thetae_unit => needUnits c && decide (c.rad ≠ .off)                                        -- 849-853
  | .cour | .DTd | .DTl | .DTr | .DTp | .tf => true                                                                      -- 788, 856-861
  | .maxnscatt | .nubins | .numin | .numax => decide (c.rad ≠ .off)                                                      -- 867-879
  | .P => true                                                                                                           -- 908
  | .divb | .fail_save | .jcon => c.full                                                                                 -- 926-929, 962-965
  | .PRESS | .ENT | .TEMP | .CS2 => c.full && c.eosvars                                                                  -- 931-953
  | .Qvisc => c.full && c.electrons                                                                                      -- 955-956
  | .Qcoul => c.full && (c.electrons && decide (c.rad ≠ .off))                                                           -- 957-959
  | .Nsph | .nph | .Jrad | .dtau_scatt | .dtau_tot | .dtau_avg | .Nem | .Nabs | .Nsc | .tau_cool | .Rmunu | .Nem_phys | .Nabs_phys | .radG_int | .nuLnu =>
    c.full && decide (c.rad ≠ .off)                                                                                      -- 967-1076
  | .local_angles | .Gnu | .local_Ns | .local_wsqr | .local_moments => c.full && (decide (c.rad = .neutrinos) && c.localAngles) -- 1079-1146
  | .local_osc_count => c.full && (decide (c.rad = .neutrinos) && c.localAngles && c.oscillations)                       -- 1148-1172
  | .rz_r_orig_hist | .rz_z_orig_hist => c.full && (decide (c.rad ≠ .off) && c.rz)                                       -- 1175-1188
  | .osc_rz_r_orig_hist | .osc_rz_z_orig_hist => c.full && (decide (c.rad ≠ .off) && c.rz && c.oscillations)             -- 1189-1192
  | .gcov | .gcon | .gdet | .alpha | .Xharm | .Xcart | .XFharm | .XFcart | .Lambda_h2cart_con | .Lambda_h2cart_cov => true -- 406-476, 496-544, 620-642
  | .Xbl | .Lambda_h2bl_con | .Lambda_h2bl_cov | .Lambda_bl2cart_con | .Lambda_bl2cart_cov | .Gamma => c.mks             -- 478-494, 546-618

/-- Header entries the reader decides on. -/
structure Hdr where
  mks : Bool
  rad : Rad
  electrons : Bool
  eos : Eos
  eosvars : Bool
  fullDump : Bool
  oscillations : Bool
  localAngles : Bool

/-- A dump with its grid file: which datasets there are, and the values of the header entries (meaningful where the dataset is there). -/
structure File where
  has : Name → Bool
  hdr : Hdr

/-- What a run writes. -/
def write (c : Cfg) : File := ⟨written c, ⟨c.mks, c.rad, c.electrons, c.eos, c.eosvars, c.full, c.oscillations, c.localAngles⟩⟩

/-- Asking for datasets. -/
def need (f : File) (l : List Name) : Option (List Name) := if l.all f.has then some l else none

/-- `read_hdr_var`, script/analysis/hdf5_to_dict.py:84-91: a default where there is no dataset. -/
def orDefault {α : Type} (f : File) (n : Name) (v d : α) : α := if f.has n then v else d

/-- `load_hdr`, script/analysis/hdf5_to_dict.py:97-151. -/
def loadHdr (f : File) : Option Hdr :=
  (need f [.metric, .electrons, .radiation, .output_eosvars]).bind fun _ =>
  let h : Hdr :=
    { f.hdr with
      eos := orDefault f .eos f.hdr.eos .gamma
      fullDump := orDefault f .FULL_DUMP f.hdr.fullDump true
      localAngles := orDefault f .local_angular_distributions f.hdr.localAngles false
      oscillations := orDefault f .neutrino_oscillations f.hdr.oscillations false }
  let keys : List Name := [.P, .cour, .DTd, .DTl, .DTp, .DTr, .tf]
    ++ (if h.electrons then [.game, .gamp] else [])
    ++ (if h.eos = .table ∨ h.rad ≠ .off then [.L_unit, .T_unit, .M_unit, .RHO_unit, .U_unit, .B_unit] else [])
    ++ (if h.rad ≠ .off then [.tp_over_te, .Ne_unit, .Thetae_unit, .maxnscatt, .nubins, .numin, .numax] else [])
    ++ (if h.eos = .table then [.TEMP_unit] else [])
    ++ (if h.mks then [.derefine_poles, .Rin, .Rout, .Reh, .Risco, .hslope, .a, .poly_xt, .poly_alpha, .mks_smooth] ++ (if h.rad ≠ .off then [.Mbh, .mbh, .Rout_rad] else []) else [])
    ++ (if h.eos = .gamma then [.gam] else [])
    ++ (if h.eos = .table then [.eospath] else [])
    ++ (if h.eos = .polytrope then [.poly_K, .poly_gam] else [])
  (need f keys).map fun _ => h

/-- `load_geom`, script/analysis/hdf5_to_dict.py:184-279, with its default arguments. -/
def loadGeom (f : File) (h : Hdr) : Option (List Name) :=
  need f ([.gcov, .gcon, .gdet, .alpha, .Xharm, .Xcart, .XFharm, .XFcart, .Lambda_h2cart_con, .Lambda_h2cart_cov]
    ++ (if h.mks then [.Xbl, .Lambda_h2bl_con, .Lambda_h2bl_cov, .Lambda_bl2cart_con, .Lambda_bl2cart_cov] else [])
    ++ (if h.mks ∧ f.has .Gamma then [.Gamma] else []))

/-- `keys` of `load_dump`, script/analysis/hdf5_to_dict.py:316-342. -/
def arrays (f : File) (h : Hdr) : List Name :=
  let opt (n : Name) : List Name := if f.has n then [n] else []
  if h.fullDump then
    [.divb, .fail_save] ++ (if h.electrons then [.Qvisc] else [])
    ++ (if h.rad ≠ .off then
        [.Rmunu, .Nsph, .nph, .nuLnu, .Jrad, .Nem, .Nabs, .Nsc] ++ opt .radG_int ++ opt .tau_cool ++ opt .dtau_avg ++ opt .dtau_scatt ++ opt .dtau_tot ++ opt .Nem_phys ++ opt .Nabs_phys
        ++ (if h.electrons then [.Qcoul] else [])
      else [])
    ++ (if h.eosvars then [.PRESS, .TEMP, .ENT] ++ opt .SC2 else [])
  else []

/-- `load_dump`, script/analysis/hdf5_to_dict.py:291-474: the datasets of the dump whose contents end up in the result. Asked for in the file: lines 312, 314, 343-344, 353, 396-400, 408. Asked for in what
was loaded before: `divb` (348), `gam` (355), entries used with radiation (376-380, 439-451). -/
def loadDump (f : File) : Option (List Name) :=
  (loadHdr f).bind fun h =>
  (loadGeom f h).bind fun _ =>
  (need f [.P, .jcon]).bind fun l0 =>
  (need f (arrays f h)).bind fun l1 =>
  (if h.mks ∧ Name.divb ∉ l1 then none else some ()).bind fun _ =>
  (if h.eosvars then need f [.TEMP] else if h.eos = .gamma then some [] else none).bind fun l2 =>
  (if h.rad ≠ .off ∧ ¬ (Name.Jrad ∈ l1 ∧ Name.Nem ∈ l1 ∧ Name.Nsc ∈ l1 ∧ Name.Rmunu ∈ l1) then none else some ()).bind fun _ =>
  (if h.rad ≠ .off ∧ (Name.dtau_avg ∈ l1 ∧ Name.dtau_tot ∉ l1) then none else some ()).bind fun _ =>
  (if h.rad ≠ .off ∧ (h.oscillations ∨ h.localAngles) then
    need f ([.local_angles, .Gnu, .local_Ns, .local_wsqr, .local_moments] ++ (if h.oscillations then [.local_osc_count] else []))
  else some []).map fun l3 => l0 ++ l1 ++ l2 ++ l3

/-- Whether `get_dumps_full` lists the file, script/analysis/hdf5_to_dict.py:59-62. -/
def listedAsFull (f : File) : Bool := if !f.has .FULL_DUMP then true else f.hdr.fullDump

end Nubhlight.DumpRead
