import Mathlib.Data.List.Basic
import Mathlib.Analysis.SpecialFunctions.Log.Basic

set_option autoImplicit false

/-! # Model of the index of a dump for visualisation

core/xdmf_output.c:24-272, core/coord.c:73-77: the text file written beside each dump, which names arrays of the dump and of the grid file, their
sizes, and a part of each to show; and the arrays core/io.c:388-642, 734-1197 writes.

The index is the list of the arrays it names (`Item`); the fixed text around them is left out, and so is the failure to open a file. Arrays with
one value per run (the header) are left out of the dump. -/

namespace Nubhlight.Xdmf

/-- The switches and sizes of a build that decide what is written. -/
structure Build where
  n1 : ℕ
  n2 : ℕ
  n3 : ℕ
  passive : List String
  electrons : Bool
  radiation : Bool
  eosvars : Bool
  maxnscatt : ℕ

/-- An array in a file: its name, its size and the bits of one floating point number of it. -/
structure DSet where
  name : String
  dims : List ℕ
  bits : ℕ
  deriving DecidableEq

/-- One array named by the index: the title, the file as written, the array, its size and bits, and first index and number of indices shown in
each direction. -/
structure Item where
  title : String
  file : List Char
  dset : String
  dims : List ℕ
  bits : ℕ
  start : List ℤ
  count : List ℤ

/-- `sprintf` of `%08d`, for numbers that are not negative. -/
def pad8 (d : ℕ) : List Char := List.replicate (8 - (Nat.toDigits 10 d).length) '0' ++ Nat.toDigits 10 d

/-- The names of the variables, core/io.c:140, 294-301, with the positions of core/decs.h:127-159. -/
def vnams (b : Build) : List String :=
  ["RHO", "UU", "U1", "U2", "U3", "B1", "B2", "B3"] ++ b.passive ++ (if b.electrons then ["KEL", "KTOT"] else [])

/-- `NVAR`, core/decs.h:136-159. -/
def nvar (b : Build) : ℕ := 8 + b.passive.length + (if b.electrons then 2 else 0)

/-- Sizes of arrays in files, core/io.c:89, 104, 123. -/
def grid3 (b : Build) : List ℕ := [b.n1, b.n2, b.n3]
def vec4 (b : Build) : List ℕ := [b.n1, b.n2, b.n3, 4]
def tens5 (b : Build) : List ℕ := [b.n1, b.n2, b.n3, 4, 4]

/-- The arrays of the grid file, core/io.c:406-544, 620-642 (those written for some metrics only are left out: connection, Boyer-Lindquist
coordinates and their Jacobians, and the angles of local distributions). -/
def gridFile (b : Build) : List DSet :=
  [⟨"Xharm", vec4 b, 64⟩, ⟨"Xcart", vec4 b, 64⟩, ⟨"XFharm", [b.n1 + 1, b.n2 + 1, b.n3 + 1, 4], 64⟩,
   ⟨"XFcart", [b.n1 + 1, b.n2 + 1, b.n3 + 1, 4], 64⟩, ⟨"gcov", tens5 b, 64⟩, ⟨"gcon", tens5 b, 64⟩, ⟨"gdet", grid3 b, 64⟩,
   ⟨"alpha", grid3 b, 64⟩, ⟨"Lambda_h2cart_con", tens5 b, 64⟩, ⟨"Lambda_h2cart_cov", tens5 b, 64⟩]

/-- The arrays of floating point numbers, one or more per zone, of a dump, core/io.c:908, 926-1035; `full` is line 767. (Left out: arrays of
integers, and those after line 1035, none of which the index names.) -/
def dumpFile (b : Build) (full : Bool) : List DSet :=
  ⟨"P", [b.n1, b.n2, b.n3, nvar b], 32⟩ ::
    if full then
      [⟨"divb", grid3 b, 32⟩] ++
      (if b.eosvars then [⟨"PRESS", grid3 b, 32⟩, ⟨"ENT", grid3 b, 32⟩, ⟨"TEMP", grid3 b, 32⟩, ⟨"CS2", grid3 b, 32⟩] else []) ++
      (if b.electrons then ⟨"Qvisc", grid3 b, 32⟩ :: (if b.radiation then [⟨"Qcoul", grid3 b, 32⟩] else []) else []) ++
      [⟨"jcon", vec4 b, 32⟩] ++
      (if b.radiation then
        [⟨"nph", grid3 b, 32⟩, ⟨"Jrad", [b.maxnscatt + 2, b.n1, b.n2, b.n3], 32⟩, ⟨"dtau_scatt", grid3 b, 64⟩, ⟨"dtau_tot", grid3 b, 64⟩,
         ⟨"tau_cool", grid3 b, 32⟩, ⟨"Rmunu", tens5 b, 32⟩] else [])
    else []

/-- Names of files as the index writes them, core/xdmf_output.c:49-51. -/
def dname (d : ℕ) : List Char := "../dump_".toList ++ pad8 d ++ ".h5".toList
def gname : List Char := "../grid.h5".toList
def fname (d : ℕ) : List Char := "dump_".toList ++ pad8 d ++ ".xmf".toList

/-- `coord_meta`, core/xdmf_output.c:157-174. -/
def coordMeta (b : Build) (iX : ℤ) (indx : ℕ) : Item :=
  ⟨"", gname, "XFcart", [b.n1 + 1, b.n2 + 1, b.n3 + 1, 4], 64, [0, 0, 0, indx], [iX + 1, b.n2 + 1, b.n3 + 1, 1]⟩

/-- `prim_meta`, core/xdmf_output.c:176-198. -/
def primMeta (b : Build) (iX : ℤ) (d indx : ℕ) : Item :=
  ⟨(vnams b).getD indx "", dname d, "P", [b.n1, b.n2, b.n3, nvar b], 32, [0, 0, 0, indx], [iX, b.n2, b.n3, 1]⟩

/-- `scalar_meta`, core/xdmf_output.c:200-223. -/
def scalarMeta (b : Build) (iX : ℤ) (name : String) (src : List Char) (prec : ℕ) : Item :=
  ⟨name, src, name, [b.n1, b.n2, b.n3], prec, [0, 0, 0], [iX, b.n2, b.n3]⟩

/-- `vec_component`, core/xdmf_output.c:225-247; the file is that of line 243. -/
def vecComponent (b : Build) (iX : ℤ) (d : ℕ) (name : String) (indx : ℕ) : Item :=
  ⟨name ++ "_" ++ toString indx, fname d, name, [b.n1, b.n2, b.n3, 4], 32, [0, 0, 0, indx], [iX, b.n2, b.n3, 1]⟩

/-- `vec_meta`, core/xdmf_output.c:148-150. -/
def vecMeta (b : Build) (iX : ℤ) (d : ℕ) (name : String) : List Item := (List.range 4).map fun mu : ℕ => vecComponent b iX d name mu

/-- `tensor_component`, core/xdmf_output.c:249-272. -/
def tensorComponent (b : Build) (iX : ℤ) (name : String) (src : List Char) (prec mu nu : ℕ) : Item :=
  ⟨name ++ "_" ++ toString mu ++ toString nu, src, name, [b.n1, b.n2, b.n3, 4, 4], prec, [0, 0, 0, mu, nu], [iX, b.n2, b.n3, 1, 1]⟩

/-- `tensor_meta`, core/xdmf_output.c:152-155. -/
def tensorMeta (b : Build) (iX : ℤ) (name : String) (src : List Char) (prec : ℕ) : List Item :=
  (List.range 4).flatMap fun mu : ℕ => (List.range 4).map fun nu : ℕ => tensorComponent b iX name src prec mu nu

/-- Coordinates of the corners, `geom_meta`, core/xdmf_output.c:140-146. -/
def geomMeta (b : Build) (iX : ℤ) : List Item := [1, 2, 3].map fun d : ℕ => coordMeta b iX d

/-- What is shown of a full dump, core/xdmf_output.c:100-130. -/
def fullItems (b : Build) (iX : ℤ) (d : ℕ) : List Item :=
  [scalarMeta b iX "divb" (dname d) 32] ++ vecMeta b iX d "jcon" ++
    (if b.eosvars then [scalarMeta b iX "PRESS" (dname d) 32, scalarMeta b iX "ENT" (dname d) 32, scalarMeta b iX "TEMP" (dname d) 32,
      scalarMeta b iX "CS2" (dname d) 32] else []) ++
    (if b.electrons then scalarMeta b iX "Qvisc" (dname d) 32 :: (if b.radiation then [scalarMeta b iX "Qcoul" (dname d) 32] else []) else []) ++
    (if b.radiation then [scalarMeta b iX "nph" (dname d) 32] ++ vecMeta b iX d "Jrad" ++ tensorMeta b iX "Rmunu" (dname d) 32 else [])

/-- `write_xml_file`, core/xdmf_output.c:40-138, for dump number `d`; `iX` is `iX1_max` and `DTf` the number of dumps per full dump. `none`: the
remainder of line 54 by zero. -/
def items (b : Build) (iX : ℤ) (DTf : ℤ) (d : ℕ) : Option (List Item) :=
  if DTf = 0 then none
  else some (geomMeta b iX ++ tensorMeta b iX "Lambda_h2cart_con" gname 64 ++ tensorMeta b iX "Lambda_h2cart_cov" gname 64 ++
    tensorMeta b iX "gcon" gname 64 ++ tensorMeta b iX "gcov" gname 64 ++ [scalarMeta b iX "gdet" gname 64, scalarMeta b iX "alpha" gname 64] ++
    ((List.range (nvar b)).map fun ip : ℕ => primMeta b iX d ip) ++ (if Int.tmod d DTf = 0 then fullItems b iX d else []))

/-- The data files a run has after dump number `d`, with their paths below the output directory: the grid file (core/io.c:388-392) and the dumps
so far (core/io.c:738-740, 767). -/
def disk (b : Build) (DTf : ℤ) (d : ℕ) : List (List Char × List DSet) :=
  ("dumps/grid.h5".toList, gridFile b) ::
    (List.range (d + 1)).map fun n : ℕ => ("dumps/dump_".toList ++ pad8 n ++ ".h5".toList, dumpFile b (decide (Int.tmod n DTf = 0)))

/-- `bl_i_of_r`, core/coord.c:73-77 (truncation towards zero). -/
noncomputable def blIOfR (startx dx r : ℝ) : ℤ :=
  let q := (Real.log r - startx) / dx
  if 0 ≤ q then ⌊q⌋ else ⌈q⌉

/-- `iX1_max`, core/xdmf_output.c:43-47. -/
noncomputable def iX1max (mks : Bool) (startx dx Rout_vis : ℝ) (n1 : ℕ) : ℤ := if mks then blIOfR startx dx Rout_vis else n1

end Nubhlight.Xdmf
