import Verif.Model.Params
import Mathlib.Data.Rat.Floor
import Mathlib.Data.Int.Log
import Mathlib.Algebra.Order.Round

set_option autoImplicit false

/-!
# Model of the build scripts

script/config.py:32-99 (run-time parameters), 434-436, 455-532, 590-597 and 693-777 (`build`), script/util.py `change_rparm`; the parameters the program asks for, core/input.c:44-173 with
core/decs.h:301. Strings are lists of characters, a Python dictionary is a list of pairs in the order of insertion. Left out: compilation, directories, machines, messages and compile-time
parameters that change no run-time parameter. The program is reached only if `build` does not stop, and the parameter file is written unless `-noparam` is given.
-/

namespace Nubhlight.Config
open Nubhlight.Params

abbrev Name := List Char

/-- `METRIC`. -/
inductive Metric
  | minkowski
  | mks
  deriving DecidableEq

/-- `EOS`. -/
inductive EosType
  | gamma
  | polytrope
  | table
  deriving DecidableEq

/-- `RADIATION`: not active, `RADTYPE_LIGHT`, `RADTYPE_NEUTRINOS`. -/
inductive RadType
  | off
  | light
  | neutrinos
  deriving DecidableEq

/-- The compile-time parameters that choose run-time parameters: `METRIC`, `EOS`, `RADIATION`, `ELECTRONS`, `COULOMB`, `GAMMA_FALLBACK`, `FLATEMISS`, `MULTISCATT_TEST`,
`RZ_HISTOGRAMS`, `BURROWS_OPACITIES`, `HDF5_OPACITIES`. A parameter is active if it is given and not zero, false or empty (script/util.py:95-99). -/
structure Cfg where
  metric : Metric
  eos : EosType
  rad : RadType
  electrons : Bool
  coulomb : Bool
  fallback : Bool
  flat : Bool
  multi : Bool
  rz : Bool
  burrows : Bool
  hdf5 : Bool

/-- `RADIATION` is active. -/
def Cfg.on (c : Cfg) : Bool := decide (c.rad ≠ .off)

/-- A value given to a parameter: a number or a text. -/
inductive Value
  | num (q : ℚ)
  | text (s : List Char)

/-- `class rparm`, script/config.py:32-34. `none` is Python's `None`. -/
structure RParm where
  kind : Kind
  value : Option Value

/-- A call `set_rparm(name, datatype, default)`, with one of the three types. -/
structure Call where
  name : Name
  kind : Kind
  default : Option Value

/-- `RPARMS`. -/
abbrev Dict := List (Name × RParm)

/-- `set_rparm`, script/config.py:54-70: a value already there is kept, the type is replaced. -/
def setR (R : Dict) (x : Call) : Dict :=
  if x.name ∈ R.map Prod.fst then R.map fun e => if e.1 = x.name then (x.name, ⟨x.kind, e.2.value⟩) else e
  else R ++ [(x.name, ⟨x.kind, x.default⟩)]

/-- Shorthand for names. -/
def nm (s : String) : Name := s.toList

/-- A parameter of type `double` with a default. -/
def dbl (s : String) (q : ℚ) : Call := ⟨nm s, .dbl, some (.num q)⟩

/-- A parameter of type `double` without default. -/
def dbl0 (s : String) : Call := ⟨nm s, .dbl, none⟩

/-- A parameter of type `integer` with a default. -/
def int (s : String) (q : ℚ) : Call := ⟨nm s, .int, some (.num q)⟩

/-- `NEED_UNITS` of the script, script/config.py:434-436. -/
def Cfg.scriptUnits (c : Cfg) : Bool := c.on || c.coulomb || decide (c.eos = .table)

/-- `NEED_UNITS` of the program, core/decs.h:301. -/
def Cfg.units (c : Cfg) : Bool := c.on || decide (c.eos = .table)

/-- The core calls of `set_rparm`, script/config.py:456-532. -/
def coreSets (c : Cfg) : List Call :=
  [dbl0 "tf", dbl0 "dt"] ++
  (if c.metric = .minkowski then [dbl "x1Min" 0, dbl "x1Max" 1, dbl "x2Min" 0, dbl "x2Max" 1, dbl "x3Min" 0, dbl "x3Max" 1] else []) ++
  (if c.metric = .mks then [dbl "a" (1 / 2), dbl "hslope" (3 / 10), dbl "poly_xt" (82 / 100), dbl "poly_alpha" 14, dbl "mks_smooth" (1 / 2), dbl "Rout" 40, dbl "Rout_vis" 40] else []) ++
  (if c.scriptUnits then (if c.metric = .minkowski then [dbl0 "L_unit", dbl0 "M_unit"] else [dbl0 "M_unit", dbl "mbh" (1989 * 10 ^ 31)]) else []) ++
  (if c.eos = .gamma then [dbl "gam" (5 / 3)] else []) ++
  [dbl "cour" (9 / 10)] ++
  (if c.on then [dbl "cour_cool" (1 / 4)] else []) ++
  (if c.electrons then [dbl "game" (4 / 3), dbl "gamp" (5 / 3), dbl "fel0" (1 / 100), dbl "tptemin" (1 / 1000), dbl "tptemax" 1000] else []) ++
  (if c.on then
    (if c.electrons then [] else [dbl "tp_over_te" 1]) ++
    [dbl "nph_per_proc" 100000, dbl "numin" (10 ^ 8), dbl "numax" (10 ^ 20), dbl "tune_emiss" 1, dbl "tune_scatt" 1, dbl "t0_tune_emiss" (-1), dbl "t0_tune_scatt" (-1),
      dbl "thetae_max" 1000, dbl "sigma_max" 1, dbl "kdotk_tol" (1 / 10 ^ 6), dbl "Nph_to_track" 0, int "thbin" 8, int "phibin" 8] ++
    (if c.flat then [dbl "cnu_flat" 1] else []) ++
    (if c.rz then (if c.metric = .minkowski then [dbl "rz_rmax" 1, dbl "rz_zmax" 1] else [dbl "rz_rmax" 40, dbl "rz_zmax" 40]) else [])
  else []) ++
  [⟨nm "init_from_grmhd", .str, some (.text (nm "No"))⟩, dbl "DTd" (1 / 2), dbl "DTl" (1 / 10), dbl "DTr" 1000, int "DNr" 1024, int "DTp" 100, int "DTf" 1,
    ⟨nm "outputdir", .str, some (.text (nm "./"))⟩]

/-- `RPARMS` when the parameter file is written, after the calls of the problem's script. -/
def params (c : Cfg) (user : List Call) : Dict := (user ++ coreSets c).foldl setR []

/-- What is written: a line of text, or the line of a parameter. -/
inductive Item
  | text (l : List Char)
  | parm (n : Name)

/-- A heading after an empty line. -/
def head (s : String) : List Item := [.text ['\n'], .text (s.toList ++ ['\n'])]

/-- The parameters with these names. -/
def ps (l : List String) : List Item := l.map fun s => .parm (nm s)

/-- The lines written for the core parameters, script/config.py:697-771. -/
def items (c : Cfg) : List Item :=
  [.text (nm "### RUNTIME PARAMETERS ###" ++ ['\n'])] ++ head "# COORDINATES" ++ ps ["tf", "dt"] ++
  (if c.metric = .minkowski then ps ["x1Min", "x1Max", "x2Min", "x2Max", "x3Min", "x3Max"] else []) ++
  (if c.metric = .mks then ps ["Rout"] ++ (if c.on then ps ["Rout_rad"] else []) else []) ++
  (if c.scriptUnits then head "# UNITS" ++ (if c.metric = .minkowski then ps ["L_unit", "M_unit"] else ps ["mbh", "M_unit"]) else []) ++
  head "# FLUID" ++ ps ["cour"] ++
  (if c.on then ps ["cour_cool"] else []) ++
  (if c.eos = .gamma then ps ["gam"] else []) ++
  (if c.eos = .table then ps ["eospath"] else []) ++
  (if c.electrons then head "# ELECTRONS" ++ ps ["game", "gamp", "fel0", "tptemin", "tptemax"] else []) ++
  (if c.on then
    head "# RADIATION" ++ (if c.electrons then [] else ps ["tp_over_te"]) ++
    ps ["nph_per_proc", "numin", "numax", "tune_emiss", "tune_scatt", "t0_tune_emiss", "t0_tune_scatt", "thetae_max", "sigma_max", "kdotk_tol", "Nph_to_track", "thbin", "phibin"] ++
    (if c.burrows then ps ["opac_param_file", "opac_file"] else []) ++
    (if c.hdf5 then ps ["opac_file"] else []) ++ ps ["init_from_grmhd"]
  else []) ++
  head "# OUTPUT" ++ ps ["DTd", "DTl", "DTr", "DNr", "DTp", "DTf", "outputdir"]

/-- The tag written for a type, script/config.py:79-93. -/
def tagOf : Kind → List Char
  | .int => ['[', 'i', 'n', 't', ']']
  | .dbl => ['[', 'd', 'b', 'l', ']']
  | .str => ['[', 's', 't', 'r', ']']

section
variable (py : Kind → Value → Option (List Char))

/-- The line of a parameter, script/config.py:77-97; `py` is what Python's `%d`, `%e` or `%s` makes of a value, `none` if it raises an error. -/
def lineOf (n : Name) (p : RParm) : Option (List Char) :=
  match p.value with
  | none => some (tagOf p.kind ++ ([' '] ++ (n ++ ([' '] ++ (['='] ++ ([' '] ++ ['\n']))))))
  | some v => (py p.kind v).map fun t => tagOf p.kind ++ ([' '] ++ (n ++ ([' '] ++ (['='] ++ ([' '] ++ (t ++ (['\n'] ++ [])))))))

/-- `write_rparm`, script/config.py:72-99: the line, and the dictionary without the parameter. `none`: the script ends. -/
def writeR (R : Dict) (n : Name) : Option (List Char × Dict) :=
  match R.find? fun e => decide (e.1 = n) with
  | none => none
  | some e => (lineOf py n e.2).map fun l => (l, R.filter fun e => decide (e.1 ≠ n))

/-- Items in order. -/
def writeAll : Dict → List Item → Option (List (List Char) × Dict)
  | R, [] => some ([], R)
  | R, .text l :: is => (writeAll R is).map fun x => (l :: x.1, x.2)
  | R, .parm n :: is => (writeR py R n).bind fun x => (writeAll x.2 is).map fun y => (x.1 :: y.1, y.2)

/-- The parameter file, script/config.py:696-776. `none`: the script ends before it is complete. -/
def template (c : Cfg) (user : List Call) : Option (List (List Char)) :=
  (writeAll py (params c user) (items c)).bind fun x =>
    if x.2.isEmpty then some x.1
    else (writeAll py x.2 (head "# PROBLEM" ++ x.2.map fun e => .parm e.1)).map fun y => x.1 ++ y.1

end

/-- The parameters the program asks for, core/input.c:55-172, in their order; those of the problem (`set_problem_params`) follow. -/
def asked (c : Cfg) : List Name :=
  [nm "tf", nm "dt"] ++
  (if c.metric = .minkowski then [nm "x1Min", nm "x1Max", nm "x2Min", nm "x2Max", nm "x3Min", nm "x3Max"] else []) ++
  (if c.metric = .mks then [nm "a", nm "hslope", nm "poly_xt", nm "poly_alpha", nm "mks_smooth", nm "Rout", nm "Rout_vis"] ++ (if c.on then [nm "Rout_rad"] else []) else []) ++
  [nm "cour"] ++
  (if c.on then [nm "cour_cool"] else []) ++
  (if c.eos = .gamma ∨ c.fallback then [nm "gam"] else []) ++
  (if c.eos = .polytrope then [nm "poly_K", nm "poly_gam"] else []) ++
  (if c.eos = .table then [nm "eospath"] else []) ++
  (if c.units then (if c.metric = .minkowski then [nm "L_unit", nm "M_unit"] else [nm "mbh", nm "M_unit"]) else []) ++
  (if c.electrons then [nm "game", nm "gamp", nm "fel0", nm "tptemin", nm "tptemax"] else []) ++
  (if c.on then
    (if c.electrons then [] else [nm "tp_over_te"]) ++
    [nm "nph_per_proc", nm "numin", nm "numax", nm "tune_emiss", nm "tune_scatt", nm "t0_tune_emiss", nm "t0_tune_scatt", nm "thetae_max", nm "sigma_max", nm "kdotk_tol", nm "Nph_to_track"] ++
    (if c.flat then [nm "cnu_flat"] else []) ++
    (if c.multi then [nm "ms_theta_nu0", nm "ms_delta0"] else []) ++
    (if c.rz then [nm "rz_rmax", nm "rz_zmax"] else []) ++
    (if c.rad = .neutrinos then (if c.burrows then [nm "opac_param_file", nm "opac_file"] else []) ++ (if c.hdf5 then [nm "opac_file"] else []) else [])
  else []) ++
  [nm "init_from_grmhd", nm "DTd", nm "DTl", nm "DTr", nm "DNr", nm "DTp", nm "DTf", nm "outputdir"]

/-! ## Numbers -/

/-- A number written with `p` significant decimal digits. Exact halves are rounded up, Python rounds them to even. -/
def sig (p : ℕ) (q : ℚ) : ℚ :=
  if q = 0 then 0
  else
    let e : ℤ := p - 1 - Int.log 10 |q|
    (round (q * 10 ^ e) : ℚ) / 10 ^ e

/-- The number `%e` writes, script/config.py:88: six digits after the first. -/
def pctE (q : ℚ) : ℚ := sig 7 q

/-- The number `%g` writes into `params.h` for a compile-time parameter, script/config.py:596: six digits. -/
def pctG (q : ℚ) : ℚ := sig 6 q

/-- The number `%d` writes, script/config.py:83: the whole part. -/
def pctD (q : ℚ) : ℤ := if 0 ≤ q then ⌊q⌋ else ⌈q⌉

/-! ## Changing a parameter file -/

/-- `key in line`. -/
def within (key line : List Char) : Bool := decide (key <:+: line)

/-- `line.split(key)[0]` for a line that contains `key`: what is before its first occurrence. -/
def before (key : List Char) : List Char → List Char
  | [] => []
  | c :: l => if key.isPrefixOf (c :: l) then [] else c :: before key l

/-- `change_rparm`, script/util.py:114-125; `val` is `str(val)`, lines end with a line feed. -/
def changeR (key val : List Char) (lines : List (List Char)) : List (List Char) :=
  lines.map fun l => if within key l then before key l ++ key ++ [' ', '=', ' '] ++ val ++ ['\n'] else l

end Nubhlight.Config
