import Mathlib.Data.List.Basic
import Mathlib.Data.Nat.Basic

/-!
# What the outputs allocate and open, and what they give back

core/io.c: `dump_grid` (388-732), `dump` (734-1204), `restart_write` (1212-1535), `dump_tracers` (1946-2245), `write_array` (2248-2309),
`read_array` (2311-2343), and core/util.c:19-32 (`safe_malloc`). Blocks of memory and HDF5 identifiers are numbered in the order in which they are
made. What is written is not modelled here, only the lives of buffers and identifiers. Not modelled: `track_ph`, `init_fluid_restart`, identifiers of
the types of packets, which are made once (core/io.c:212-292), the failure of a call (the code leaves, or goes on with a negative identifier).
-/

set_option autoImplicit false

namespace Nubhlight.Resources

/-- A block of `c * n` numbers, or an HDF5 identifier. -/
inductive Kind
  | mem (c n : ℕ)
  | handle
  deriving DecidableEq, Repr

/-- The variables of the functions. -/
inductive Var
  | filespace | memspace | plist | dset | buf | strType
  | file | group
  | primPlist | primDset | strtype | primSpace | strAttr
  | superphotons | offsets | counts
  | id | it | active | time | mass | Xharm | Xcart | x | y | z | rho | uu | s | Press | T | Ye | YeEm | emitted | absorbed
  | ucon | ucov | bcon | bcov
  | XFharm | XFcart | Xbl | gcov | gcon | gdet | alpha | Gamma | con | cov
  deriving DecidableEq, Repr

/-- What is alive, and the number of the next. -/
structure Heap where
  next : ℕ
  live : List (ℕ × Kind)
  deriving DecidableEq, Repr

/-- Value of a variable: not set, `NULL`, or the number of something. -/
inductive Val
  | undef
  | null
  | ref (i : ℕ)
  deriving DecidableEq, Repr

def Env := Var → Val

def noEnv : Env := fun _ => .undef

def Env.set (e : Env) (v : Var) (a : Val) : Env := fun w => if w = v then a else e w

/-- `v = safe_malloc(...)` or `v = H5...create(...)`, and `free(v)` or `H5...close(v)`. -/
inductive Op
  | acquire (v : Var) (k : Kind)
  | release (v : Var)

/-- `safe_malloc(0)` is `NULL` (core/util.c:21-22). -/
def isNull : Kind → Bool
  | .mem _ n => n = 0
  | .handle => false

/-- One operation. `none`: something is given back that is not alive, or was never made. `free(NULL)` does nothing. -/
def step (h : Heap) (e : Env) : Op → Option (Heap × Env)
  | .acquire v k => if isNull k then some (h, e.set v .null) else some (⟨h.next + 1, (h.next, k) :: h.live⟩, e.set v (.ref h.next))
  | .release v =>
    match e v with
    | .undef => none
    | .null => some (h, e)
    | .ref i => if (h.live.map Prod.fst).contains i then some (⟨h.next, h.live.filter fun p => p.1 ≠ i⟩, e) else none

def exec : List Op → Heap → Env → Option (Heap × Env)
  | [], h, e => some (h, e)
  | o :: l, h, e =>
    match step h e o with
    | none => none
    | some (h', e') => exec l h' e'

/-- The types of `write_array`, core/io.c:24-27; `other` is the type of packets. -/
inductive Ty
  | float | dbl | int | str | other
  deriving DecidableEq, Repr

/-- `write_array`, core/io.c:2251-2308, for an array of `n` numbers in memory. -/
def writeArray (t : Ty) (n : ℕ) : List Op :=
  [.acquire .filespace .handle, .acquire .memspace .handle, .acquire .plist .handle] ++
  (match t with
  | .float => [.acquire .buf (.mem 1 n), .acquire .dset .handle, .release .plist, .acquire .plist .handle, .release .buf]
  | .str => [.acquire .strType .handle, .acquire .plist .handle, .acquire .dset .handle, .release .plist, .acquire .plist .handle]
  | _ => [.acquire .dset .handle, .release .plist, .acquire .plist .handle]) ++
  [.release .dset, .release .plist, .release .memspace, .release .filespace]

/-- `read_array`, core/io.c:2314-2342. -/
def readArray : List Op :=
  [.acquire .filespace .handle, .acquire .memspace .handle, .acquire .plist .handle, .acquire .dset .handle, .acquire .plist .handle,
    .release .dset, .release .plist, .release .memspace, .release .filespace]

/-- A statement of an output: an operation of its own, or a call of `write_array`, which has variables of its own. -/
inductive Stmt
  | op (o : Op)
  | write (t : Ty) (n : ℕ)

def run : List Stmt → Heap → Env → Option (Heap × Env)
  | [], h, e => some (h, e)
  | .op o :: l, h, e =>
    match step h e o with
    | none => none
    | some (h', e') => run l h' e'
  | .write t n :: l, h, e =>
    match exec (writeArray t n) h noEnv with
    | none => none
    | some (h', _) => run l h' e

/-- Blocks one after the other, each with its own variables. -/
def blocks : List (List Stmt) → Heap → Option Heap
  | [], h => some h
  | b :: l, h =>
    match run b h noEnv with
    | none => none
    | some (h', _) => blocks l h'

/-- An output: the file is made (core/io.c:397-404, 744-751, 1241-1248, 1958-1965), written to, and closed (731, 1200, 1523, 2240). -/
def output (body : List (List Stmt)) (h : Heap) : Option Heap :=
  match exec [.acquire .plist .handle, .acquire .file .handle, .release .plist] h noEnv with
  | none => none
  | some (h1, e1) =>
    match blocks body h1 with
    | none => none
    | some h2 => (exec [.release .file] h2 e1).map Prod.fst

/-- The names of the variables as an attribute, core/io.c:910-924. -/
def names : List Stmt :=
  [.op (.acquire .primPlist .handle), .op (.acquire .primDset .handle), .op (.acquire .strtype .handle), .op (.acquire .primSpace .handle),
    .op (.acquire .strAttr .handle), .op (.release .strAttr), .op (.release .primSpace), .op (.release .primDset), .op (.release .primPlist)]

/-- `dump`, core/io.c:734-1204: the strings of the header (753-760; the path of the table, 830-832) and the names of the variables, with the other
arrays `l` (numbers). The order is not that of the file: it does not matter for what is modelled. -/
def dump (table : Bool) (l : List (Ty × ℕ)) : Heap → Option Heap :=
  output ([[.write .str 1], [.write .str 1], [.write .str 1], [.write .str 1]] ++ (if table then [[.write .str 1]] else []) ++ [names] ++
    l.map fun a => [.write a.1 a.2])

/-- The packets in a restart file, core/io.c:1467-1519, for `n` of them on this rank. -/
def packets (n : ℕ) : List Stmt :=
  [.op (.acquire .superphotons (.mem 1 n)), .op (.acquire .offsets (.mem 1 1)), .op (.acquire .counts (.mem 1 1)), .write .int 1, .write .int 1,
    .op (.release .offsets), .op (.release .counts), .write .other n, .op (.release .superphotons)]

/-- `restart_write`, core/io.c:1212-1535: three strings (1250-1252), the path of the table (1326-1327), the packets (with radiation) and the other
arrays. -/
def restart (table radiation : Bool) (n : ℕ) (l : List (Ty × ℕ)) : Heap → Option Heap :=
  output ([[.write .str 1], [.write .str 1], [.write .str 1]] ++ (if table then [[.write .str 1]] else []) ++
    (if radiation then [packets n] else []) ++ l.map fun a => [.write a.1 a.2])

/-- The group of a file of tracers, core/io.c:1967-1969. -/
def group : List Stmt := [.op (.acquire .group .handle), .op (.release .group)]

/-- The buffers of `dump_tracers`, core/io.c:1995-2024, for `n` tracers on this rank and `nt` types. -/
def tracerAlloc (table : Bool) (nt n : ℕ) : List Stmt :=
  ([.id, .it, .active, .time, .mass].map fun v => .op (.acquire v (.mem 1 n))) ++
  ([.Xharm, .Xcart].map fun v => .op (.acquire v (.mem 3 n))) ++
  ([.x, .y, .z, .rho, .uu, .s, .Press, .T].map fun v => .op (.acquire v (.mem 1 n))) ++
  (if table then [.op (.acquire .Ye (.mem 1 n)), .op (.acquire .YeEm (.mem 1 n))] else []) ++
  ([.emitted, .absorbed].map fun v => .op (.acquire v (.mem nt n))) ++
  ([.ucon, .ucov, .bcon, .bcov].map fun v => .op (.acquire v (.mem 4 n)))

/-- What it gives back, core/io.c:2214-2237. -/
def tracerFree (table : Bool) : List Stmt :=
  ([.id, .active, .it, .time, .mass, .Xharm, .Xcart, .x, .y, .z, .rho, .uu, .T, .s, .Press].map fun v => .op (.release v)) ++
  (if table then [.op (.release .Ye)] else []) ++
  ([.emitted, .absorbed, .ucon, .ucov, .bcon, .bcov].map fun v => .op (.release v))

/-- `dump_tracers`, core/io.c:1946-2245: header `hd` and arrays `l`, none of which is a string. -/
def tracers (table : Bool) (nt n : ℕ) (hd l : List (Ty × ℕ)) : Heap → Option Heap :=
  output ([group] ++ (hd.map fun a => [.write a.1 a.2]) ++ [tracerAlloc table nt n ++ (l.map fun a => .write a.1 a.2) ++ tracerFree table])

/-- A buffer that is made, written and given back, as most of `dump_grid`. -/
def temp (v : Var) (c n : ℕ) : List Stmt := [.op (.acquire v (.mem c n)), .write .dbl n, .op (.release v)]

/-- Two of them, core/io.c:458-474, 575-592, 599-616, 624-641. -/
def temp2 (v w : Var) (c n : ℕ) : List Stmt :=
  [.op (.acquire v (.mem c n)), .op (.acquire w (.mem c n)), .write .dbl n, .write .dbl n, .op (.release v), .op (.release w)]

/-- `dump_grid`, core/io.c:388-732, for `n` zones, `nf` corners; the connection (546-568, `mks`) is not given back. Without the arrays of the angular
distributions (644-728), which are made and given back in the same way. -/
def grid (mks : Bool) (n nf : ℕ) : Heap → Option Heap :=
  output ([temp .Xharm 4 n, temp .Xcart 4 n, temp2 .XFharm .XFcart 4 nf] ++ (if mks then [temp .Xbl 4 n] else []) ++
    [temp .gcov 16 n, temp .gcon 16 n, temp .gdet 1 n, temp .alpha 1 n] ++
    (if mks then [[.op (.acquire .Gamma (.mem 64 n)), .write .dbl n], temp2 .con .cov 16 n, temp2 .con .cov 16 n] else []) ++
    [temp2 .con .cov 16 n])

/-- The outputs of a run. -/
inductive Event
  | dump (l : List (Ty × ℕ))
  | restart (n : ℕ) (l : List (Ty × ℕ))
  | tracers (n : ℕ) (hd l : List (Ty × ℕ))

/-- One output of a run with the choices `table`, `radiation` and `nt` types. -/
def event (table radiation : Bool) (nt : ℕ) : Event → Heap → Option Heap
  | .dump l => dump table l
  | .restart n l => restart table radiation n l
  | .tracers n hd l => tracers table nt n hd l

/-- A history of outputs. -/
def history (table radiation : Bool) (nt : ℕ) : List Event → Heap → Option Heap
  | [], h => some h
  | a :: l, h =>
    match event table radiation nt a h with
    | none => none
    | some h' => history table radiation nt l h'

end Nubhlight.Resources
