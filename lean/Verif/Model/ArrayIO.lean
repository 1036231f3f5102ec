import Verif.Model.Decomp
import Mathlib.Data.List.Forall2
import Mathlib.Logic.Function.Basic

set_option autoImplicit false

/-!
# Arrays in files

core/io.c: every array of a dump, a grid file or a restart file is written and read by `write_array` and `read_array` through a hyperslab of the dataset and a
hyperslab of the memory of each rank. HDF5 is taken at its specification: the points of two hyperslabs with the same counts correspond in row-major order, and a
transfer whose hyperslab exceeds its dataspace fails (its error is not looked at) and moves nothing. A dataset is a function of the position in it, `none` where
nothing was written.
-/

namespace Nubhlight.ArrayIO

/-- Position of an index in an array stored in row-major order, as by C and HDF5. -/
def flat : List ℕ → List ℕ → ℕ
  | _ :: ds, i :: is => i * ds.prod + flat ds is
  | _, _ => 0

/-- All indices below the counts, the last running fastest: the points of a hyperslab, and the loops `ZLOOP`, `DLOOP2`, `DLOOP3`, core/decs.h:667-695. -/
def multi : List ℕ → List (List ℕ)
  | [] => [[]]
  | c :: cs => (List.range c).flatMap fun i => (multi cs).map (i :: ·)

/-- Sum of two indices. -/
def shift (a b : List ℕ) : List ℕ := List.zipWith (· + ·) a b

/-- The arguments `fdims, fstart, fcount, mdims, mstart` of `write_array` and `read_array`, core/io.c:2248-2250, 2311-2313. -/
structure Slab where
  fdims : List ℕ
  fstart : List ℕ
  fcount : List ℕ
  mdims : List ℕ
  mstart : List ℕ

/-- A hyperslab within its dataspace. -/
def fits (dims start count : List ℕ) : Bool := ((shift start count).zip dims).all fun p => p.1 ≤ p.2

/-- Pairs of a position in the file and a position in memory between which data move: the two `H5Sselect_hyperslab`, core/io.c:2252-2255, 2315-2318. -/
def points (s : Slab) : List (ℕ × ℕ) :=
  if fits s.fdims s.fstart s.fcount && fits s.mdims s.mstart s.fcount then
    (multi s.fcount).map fun i => (flat s.fdims (shift s.fstart i), flat s.mdims (shift s.mstart i))
  else []

/-- Storing values at positions one after the other. -/
def put {α : Type*} (f : ℕ → α) (l : List (ℕ × α)) : ℕ → α := l.foldl (fun f x => Function.update f x.1 x.2) f

/-- How data are written: `TYPE_FLOAT`, or `TYPE_DBL` and `TYPE_INT` (as they are). -/
inductive Kind where
  | flt
  | dbl

/-- The conversion before writing, core/io.c:2258-2266; `rnd` is the C conversion to `float`. -/
def conv {V : Type*} (rnd : V → V) : Kind → V → V
  | .flt => rnd
  | .dbl => id

/-- `write_array` on one rank, core/io.c:2248-2309. -/
def writeRank {V : Type*} (rnd : V → V) (k : Kind) (s : Slab) (mem : ℕ → V) (file : ℕ → Option V) : ℕ → Option V :=
  put file ((points s).map fun p => (p.1, some (conv rnd k (mem p.2))))

/-- `write_array` on all ranks, in some order. -/
def writeAll {V R : Type*} (rnd : V → V) (k : Kind) (slab : R → Slab) (mem : R → ℕ → V) (order : List R) (file : ℕ → Option V) : ℕ → Option V :=
  order.foldl (fun f r => writeRank rnd k (slab r) (mem r) f) file

/-- `read_array` on one rank, core/io.c:2311-2343; what was never written reads as the fill value. The broadcast of single numbers (lines 2326-2328) is not here. -/
def readRank {V : Type*} (fill : V) (s : Slab) (file : ℕ → Option V) (mem : ℕ → V) : ℕ → V :=
  put mem ((points s).map fun p => (p.2, (file p.1).getD fill))

/-- A division of the zones among ranks: `NiTOT`, `NiCPU`, core/decs.h. -/
structure Div where
  N1 : ℕ
  N2 : ℕ
  N3 : ℕ
  C1 : ℕ
  C2 : ℕ
  C3 : ℕ

/-- `N1`, `N2`, `N3`, core/decs.h:55-57. -/
def Div.n1 (D : Div) : ℕ := Decomp.stored D.N1 D.C1
def Div.n2 (D : Div) : ℕ := Decomp.stored D.N2 D.C2
def Div.n3 (D : Div) : ℕ := Decomp.stored D.N3 D.C3

/-- `global_start[1..3]` of the rank with coordinates `c`, core/mpi.c:77. -/
def Div.s1 (D : Div) (c : ℕ × ℕ × ℕ) : ℕ := Decomp.start D.N1 D.C1 c.1
def Div.s2 (D : Div) (c : ℕ × ℕ × ℕ) : ℕ := Decomp.start D.N2 D.C2 c.2.1
def Div.s3 (D : Div) (c : ℕ × ℕ × ℕ) : ℕ := Decomp.start D.N3 D.C3 c.2.2

/-- `*_grid` and `*_grid_noghost` (with `g = 0`), core/io.c:89-96, 196-198. -/
def gridSlab (D : Div) (g : ℕ) (c : ℕ × ℕ × ℕ) : Slab where
  fdims := [D.N1, D.N2, D.N3]
  fstart := [D.s1 c, D.s2 c, D.s3 c]
  fcount := [D.n1, D.n2, D.n3]
  mdims := [D.n1 + 2 * g, D.n2 + 2 * g, D.n3 + 2 * g]
  mstart := [g, g, g]

/-- `*_prim`, `*_vec`, `*_radtypevec`, `*_radg`, `*_vec_noghost` with `m` components, core/io.c:98-121, 199-206. -/
def vecSlab (D : Div) (g m : ℕ) (c : ℕ × ℕ × ℕ) : Slab where
  fdims := [D.N1, D.N2, D.N3, m]
  fstart := [D.s1 c, D.s2 c, D.s3 c, 0]
  fcount := [D.n1, D.n2, D.n3, m]
  mdims := [D.n1 + 2 * g, D.n2 + 2 * g, D.n3 + 2 * g, m]
  mstart := [g, g, g, 0]

/-- `*_tens` and `*_tens_noghost`, core/io.c:123-130, 207-211. -/
def tensSlab (D : Div) (g m : ℕ) (c : ℕ × ℕ × ℕ) : Slab where
  fdims := [D.N1, D.N2, D.N3, m, m]
  fstart := [D.s1 c, D.s2 c, D.s3 c, 0, 0]
  fcount := [D.n1, D.n2, D.n3, m, m]
  mdims := [D.n1 + 2 * g, D.n2 + 2 * g, D.n3 + 2 * g, m, m]
  mstart := [g, g, g, 0, 0]

/-- Connection coefficients, core/io.c:549-555. -/
def connSlab (D : Div) (m : ℕ) (c : ℕ × ℕ × ℕ) : Slab where
  fdims := [D.N1, D.N2, D.N3, m, m, m]
  fstart := [D.s1 c, D.s2 c, D.s3 c, 0, 0, 0]
  fcount := [D.n1, D.n2, D.n3, m, m, m]
  mdims := [D.n1, D.n2, D.n3, m, m, m]
  mstart := [0, 0, 0, 0, 0, 0]

/-- `Jrad`, `dtau_avg`, `en_int_avg`: the component comes first, core/io.c:973-980, 1416-1436, 1690-1710. -/
def leadSlab (D : Div) (g m : ℕ) (c : ℕ × ℕ × ℕ) : Slab where
  fdims := [m, D.N1, D.N2, D.N3]
  fstart := [0, D.s1 c, D.s2 c, D.s3 c]
  fcount := [m, D.n1, D.n2, D.n3]
  mdims := [m, D.n1 + 2 * g, D.n2 + 2 * g, D.n3 + 2 * g]
  mstart := [0, g, g, g]

/-- The face beyond the last zone, written by the ranks at the upper end, core/io.c:449-454. -/
def extra (N C c : ℕ) : ℕ := if Decomp.stop N C c = N + 1 - 1 then 1 else 0

/-- Corners of zones, core/io.c:444-455. -/
def faceSlab (D : Div) (m : ℕ) (c : ℕ × ℕ × ℕ) : Slab where
  fdims := [D.N1 + 1, D.N2 + 1, D.N3 + 1, m]
  fstart := [D.s1 c, D.s2 c, D.s3 c, 0]
  fcount := [D.n1 + extra D.N1 D.C1 c.1, D.n2 + extra D.N2 D.C2 c.2.1, D.n3 + extra D.N3 D.C3 c.2.2, m]
  mdims := [D.n1 + extra D.N1 D.C1 c.1, D.n2 + extra D.N2 D.C2 c.2.1, D.n3 + extra D.N3 D.C3 c.2.2, m]
  mstart := [0, 0, 0, 0]

/-- Arrays written and read by the output rank only: `nuLnu`, `local_angles_*`, header variables, core/io.c:212-213, 682-691, 1446-1456, 1719-1729. -/
def soleSlab (dims : List ℕ) (io : Bool) : Slab where
  fdims := dims
  fstart := dims.map fun _ => 0
  fcount := if io then dims else dims.map fun _ => 0
  mdims := dims
  mstart := dims.map fun _ => 0

/-- A buffer filled in a `ZLOOP` with `n += w` after each zone: `set` gives the offsets from `n` set for a zone and their values; `none` is memory from `malloc`
not written, core/io.c:407-412, 418-436, 458-470, 480-490, 497-505 and alike. -/
def pack {V : Type*} (counts : List ℕ) (w : ℕ) (set : List ℕ → List (ℕ × V)) : ℕ → Option V :=
  ((multi counts).foldl (fun (s : (ℕ → Option V) × ℕ) z => (put s.1 ((set z).map fun x => (s.2 + x.1, some x.2)), s.2 + w)) (fun _ => none, 0)).1

/-- All of `w` components set in order, core/io.c:433-434, 465-468, 501-504, 560-563. -/
def setAll {V : Type*} (w : ℕ) (f : List ℕ → ℕ → V) (z : List ℕ) : List (ℕ × V) := (List.range w).map fun l => (l, f z l)

/-- `Xbl`, core/io.c:486-488: components 1 to 3 only. -/
def setXbl {V : Type*} (r th phi : List ℕ → V) (z : List ℕ) : List (ℕ × V) := [(1, r z), (2, th z), (3, phi z)]

/-- How a restart file keeps the spectrum `nuLnu`, core/io.c:1457; it is read as doubles, core/io.c:1730. -/
def spectrumKind : Kind := .flt

/-- `Xbl` in the grid file, core/io.c:478-494: the buffer of each rank from its coordinates of zones, then `WRITE_VEC_NO_GHOSTS`. -/
def gridXbl {V : Type*} (D : Div) (r th phi : ℕ × ℕ × ℕ → List ℕ → V) (order : List (ℕ × ℕ × ℕ)) : ℕ → Option (Option V) :=
  writeAll id .dbl (vecSlab D 0 4) (fun c => pack [D.n1, D.n2, D.n3] 4 (setXbl (r c) (th c) (phi c))) order fun _ => none

end Nubhlight.ArrayIO
