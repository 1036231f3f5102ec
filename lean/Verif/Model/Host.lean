import Mathlib.Data.List.Basic

set_option autoImplicit false

/-! The options of the machine and the command that starts a run: script/config.py:15-22,
143-174 (`get_host`) and script/bhlight.py:37-54 (`bcall`).  A machine file that raises
anything but ImportError is outside the model, and so is what the command does. -/

namespace Nubhlight.Host

/-- Options: a dictionary. -/
abbrev Opts := String → Option String

/-- A file of script/machine. -/
structure Machine where
  name : String
  imports : Bool
  isHost : List Char → Bool
  opts : Opts

/-- `HOST_OPTIONS` (script/config.py:15-22). -/
def hostOptions : List String :=
  ["NAME", "COMPILER", "COMPILER_FLAGS", "DEBUG_FLAGS", "GSL_DIR", "DEBUG_FLAGS", "EXECUTABLE",
    "MPI_EXECUTABLE"]

/-- The loop over machine files (script/config.py:148-160); `none`: the host is unknown and
the script exits. -/
def choose (host : List Char) : List Machine → Option Machine
  | [] => none
  | m :: l => if m.imports then (if m.isHost host then some m else choose host l)
      else choose host l

/-- `get_env_name` (script/config.py:143-144). -/
def envName (n : String) : String := "BHLIGHT_" ++ n

/-- One turn of the loop over options (script/config.py:166-172). -/
def override (env : Opts) (h : Opts) (n : String) : Opts :=
  match env (envName n) with
  | some v => fun k => if k = n then some v else h k
  | none => h

/-- `get_host` (script/config.py:146-174). -/
def getHost (host : List Char) (ms : List Machine) (env : Opts) : Option Opts :=
  (choose host ms).map (fun m => hostOptions.foldl (override env) m.opts)

/-- The number of processes as passed: an integer or something else. -/
inductive NProcs where
  | int (n : Int)
  | other

/-- `s.split(' ')`. -/
def words : List Char → List (List Char)
  | [] => [[]]
  | c :: l =>
      match words l with
      | [] => [[]]
      | w :: ws => if c = ' ' then [] :: w :: ws else (c :: w) :: ws

/-- What `bcall` does: it raises ValueError, exits, or calls a command. -/
inductive Outcome where
  | valueError
  | unknownHost
  | run (cmd : List (List Char))

/-- `bcall` (script/bhlight.py:37-54). -/
def bcall (call : List (List Char)) (np : NProcs) (host : Option Opts) : Outcome :=
  if call = [] then .valueError
  else match np with
  | .other => .valueError
  | .int n =>
    if n < 1 then .valueError
    else match host with
    | none => .unknownHost
    | some h =>
      if 1 < n then
        .run (words ((h "MPI_EXECUTABLE").getD "mpirun").toList ++
          ["-np".toList, (toString n).toList] ++ call)
      else match h "EXECUTABLE" with
        | some e => .run (words e.toList ++ call)
        | none => .run call

/-- `re.match(r'ba\d+', host)` (script/machine/badger.py:37-38, badger_node.py:34-35), with the
digits of ASCII only. -/
def backend : List Char → Bool
  | 'b' :: 'a' :: c :: _ => c.isDigit
  | _ => false

/-- `s in host`. -/
def contains (s host : List Char) : Bool := decide (s <:+: host)

/-- script/machine/badger.py:34-38 and badger_node.py:31-35. -/
def badger (o : Opts) : Machine :=
  { name := "badger", imports := true,
    isHost := fun h => contains "ba-fe".toList h || backend h, opts := o }
def badgerNode (o : Opts) : Machine :=
  { name := "badger_node", imports := true, isHost := backend, opts := o }

end Nubhlight.Host
