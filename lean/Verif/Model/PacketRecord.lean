import Mathlib.Data.List.Basic

set_option autoImplicit false

/-!
The records of packets, byte by byte: `struct of_photon` and `struct of_track_photon` (core/decs.h:574-601), the compound types through which
HDF5 writes and reads them (core/io.c:221-291, 343-383, 1505-1516, 1760-1773) and the type through which MPI sends them (core/mpi.c:180-208, 502-504,
527-529).

Simplifications. A memory or a dataset is a function from addresses to bytes, arrays begin at address 0, and a byte is any value. Members of a struct are laid out as
by the ABI of x86-64: each at the next multiple of its alignment, which is the size of its element (double 8, int 4, pointer 8), the struct padded to a multiple of the
largest alignment. HDF5 matches the members of two compound types by name and copies a member whose type is the same on both sides without changing its bytes; the
members of native types here always have the same type on both sides, so no member is converted. MPI copies the entries of a type one by one.
-/

namespace Nubhlight.PacketRecord

/-- A member of a struct: its name, the size of an element and the number of elements. -/
structure Decl where
  name : String
  elem : ℕ
  count : ℕ

/-- Bytes of a named member within a record. -/
structure Slot where
  name : String
  off : ℕ
  size : ℕ
deriving DecidableEq

/-- The next multiple of `a`. -/
def roundUp (c a : ℕ) : ℕ := (c + a - 1) / a * a

/-- Offsets of the members of a struct from the running end `c`. -/
def layoutFrom : ℕ → List Decl → List Slot
  | _, [] => []
  | c, d :: ds => ⟨d.name, roundUp c d.elem, d.elem * d.count⟩ :: layoutFrom (roundUp c d.elem + d.elem * d.count) ds

/-- End of the last member. -/
def endFrom : ℕ → List Decl → ℕ
  | c, [] => c
  | c, d :: ds => endFrom (roundUp c d.elem + d.elem * d.count) ds

/-- Largest alignment. -/
def maxAlign (ds : List Decl) : ℕ := ds.foldr (fun d a => max d.elem a) 1

/-- `sizeof` of a struct. -/
def sizeOf (ds : List Decl) : ℕ := roundUp (endFrom 0 ds) (maxAlign ds)

/-- `struct of_photon`, core/decs.h:574-593, for any number `nsup` of copies of the position and wave vector and any number of dimensions. -/
def ofPhoton (nsup ndim : ℕ) : List Decl :=
  [⟨"X", 8, nsup * ndim⟩, ⟨"Kcov", 8, nsup * ndim⟩, ⟨"Kcon", 8, nsup * ndim⟩, ⟨"w", 8, 1⟩, ⟨"KdotKprev", 8, 1⟩, ⟨"type", 4, 1⟩, ⟨"nscatt", 4, 1⟩,
    ⟨"origin", 4, ndim⟩, ⟨"t0", 8, 1⟩, ⟨"is_tracked", 4, 1⟩, ⟨"has_oscillated", 4, 1⟩, ⟨"next", 8, 1⟩]

/-- `struct of_track_photon`, core/decs.h:596-601. -/
def ofTrack : List Decl := [⟨"X1", 8, 1⟩, ⟨"X2", 8, 1⟩, ⟨"X3", 8, 1⟩, ⟨"nscatt", 4, 1⟩]

/-- `HOFFSET` / `offsetof`; the names used in the code are those of members, so the default is not reached. -/
def hoffset (ds : List Decl) (name : String) : ℕ := (((layoutFrom 0 ds).find? fun s => s.name = name).map Slot.off).getD 0

/-- A compound type of HDF5. -/
structure Compound where
  size : ℕ
  members : List Slot

/-- Two slots without a common byte. -/
def Apart (a b : Slot) : Prop := a.off + a.size ≤ b.off ∨ b.off + b.size ≤ a.off

instance (a b : Slot) : Decidable (Apart a b) := inferInstanceAs (Decidable (_ ∨ _))

/-- `H5Tinsert`: it fails, and leaves the type alone, if the name is taken, the member overlaps another one or does not fit. The code does not look at the status,
core/io.c:232-291. -/
def insert (c : Compound) (s : Slot) : Compound :=
  if (∀ m ∈ c.members, m.name ≠ s.name) ∧ (∀ m ∈ c.members, Apart m s) ∧ s.off + s.size ≤ c.size then ⟨c.size, c.members ++ [s]⟩ else c

/-- A sequence of `H5Tinsert`. -/
def insertAll (c : Compound) (l : List Slot) : Compound := l.foldl insert c

/-- The members of a type in memory: name and size of the HDF5 type given, offsets by `HOFFSET`. -/
def memSlots (ds : List Decl) (l : List (String × ℕ)) : List Slot := l.map fun p => ⟨p.1, hoffset ds p.1, p.2⟩

/-- Names and sizes of the types of the members inserted into `phmemtype`, core/io.c:223-226, 256-271. -/
def phMembers (nsup ndim : ℕ) : List (String × ℕ) :=
  [("X", nsup * ndim * 8), ("Kcov", nsup * ndim * 8), ("Kcon", nsup * ndim * 8), ("w", 8), ("KdotKprev", 8), ("type", 4), ("nscatt", 4), ("origin", ndim * 4), ("t0", 8),
    ("is_tracked", 4), ("has_oscillated", 4)]

/-- `phmemtype`, core/io.c:254-271. -/
def phMem (nsup ndim : ℕ) : Compound := insertAll ⟨sizeOf (ofPhoton nsup ndim), []⟩ (memSlots (ofPhoton nsup ndim) (phMembers nsup ndim))

/-- `trackphmemtype`, core/io.c:283-291. -/
def trackMem : Compound := insertAll ⟨sizeOf ofTrack, []⟩ (memSlots ofTrack [("X1", 8), ("X2", 8), ("X3", 8), ("nscatt", 4)])

/-- Members at a running offset: name, size of the type, and what is added to `offset` afterwards. -/
def packed : ℕ → List (String × ℕ × ℕ) → List Slot
  | _, [] => []
  | o, (n, sz, inc) :: l => ⟨n, o, sz⟩ :: packed (o + inc) l

/-- `phfiletype`, core/io.c:228-252. (It is built but no dataset is created with it: the packets of a restart file are written with `phmemtype`.) -/
def phFile (nsup ndim : ℕ) : Compound :=
  insertAll ⟨sizeOf (ofPhoton nsup ndim), []⟩
    (packed 0 [("X", nsup * ndim * 8, nsup * ndim * 8), ("Kcov", nsup * ndim * 8, nsup * ndim * 8), ("Kcon", nsup * ndim * 8, nsup * ndim * 8), ("w", 8, 8),
      ("KdotKprev", 8, 8), ("type", 4, 4), ("nscatt", 4, 4), ("origin", ndim * 4, ndim * 4), ("t0", 8, 8), ("is_tracked", 4, 4), ("has_oscillated", 4, 0)])

/-- `trackphfiletype`, core/io.c:273-281; its size is that of `struct of_photon`. -/
def trackFile (nsup ndim : ℕ) : Compound :=
  insertAll ⟨sizeOf (ofPhoton nsup ndim), []⟩ (packed 0 [("X1", 8, 8), ("X2", 8, 8), ("X3", 8, 8), ("nscatt", 4, 0)])

/-- Bytes by address. -/
abbrev Mem (B : Type) := ℕ → B

/-- A copy of `size` bytes from `src` to `dst`. -/
structure Job where
  src : ℕ
  dst : ℕ
  size : ℕ

/-- One copy from memory `s` into `d`. -/
def copy {B : Type} (s : Mem B) (d : Mem B) (j : Job) : Mem B :=
  fun i => if j.dst ≤ i ∧ i < j.dst + j.size then s (j.src + (i - j.dst)) else d i

/-- Copies one after the other. -/
def run {B : Type} (s d : Mem B) (l : List Job) : Mem B := l.foldl (copy s) d

/-- The copies HDF5 makes for record `k` from type `a` to type `b`: every member of `b` that `a` has. -/
def convertJobs (a b : Compound) (k : ℕ) : List Job :=
  b.members.filterMap fun m => (a.members.find? fun m' => m'.name = m.name).map fun m' => ⟨k * a.size + m'.off, k * b.size + m.off, m.size⟩

/-- `H5Dwrite` or `H5Dread` of `n` records from type `a` to type `b`. -/
def convert {B : Type} (a b : Compound) (n : ℕ) (s d : Mem B) : Mem B := run s d ((List.range n).flatMap (convertJobs a b))

/-- `write_array(superphotons, ..., phmemtype)`, core/io.c:1513-1514, 2297-2304: dataset and memory have the same type. The part of the dataset that belongs to this rank
begins at 0 here. -/
def writePackets {B : Type} (nsup ndim n : ℕ) (m file : Mem B) : Mem B := convert (phMem nsup ndim) (phMem nsup ndim) n m file

/-- `read_array(superphotons, ..., phmemtype)`, core/io.c:1770-1771, 2335-2337. -/
def readPackets {B : Type} (nsup ndim n : ℕ) (file m : Mem B) : Mem B := convert (phMem nsup ndim) (phMem nsup ndim) n file m

/-- `H5Dwrite(..., trackphmemtype, ..., io_track)` into a dataset of type `trackphfiletype`, core/io.c:365-371. -/
def writeTracked {B : Type} (nsup ndim n : ℕ) (m file : Mem B) : Mem B := convert trackMem (trackFile nsup ndim) n m file

/-- An entry of an MPI type: displacement, number and size of elements. -/
structure Entry where
  disp : ℕ
  blocklen : ℕ
  elem : ℕ

/-- The names whose addresses are taken, in order, core/mpi.c:190-201. -/
def mpiNames : List String := ["X", "Kcov", "Kcon", "w", "KdotKprev", "type", "nscatt", "origin", "t0", "is_tracked", "has_oscillated", "next"]

/-- Sizes of the basic types in `type[PH_ELEM]`, core/mpi.c:181-185. -/
def mpiTypes : List ℕ := [8, 8, 8, 8, 8, 4, 4, 4, 8, 4, 4, 8]

/-- `blocklen[PH_ELEM]`, core/mpi.c:186-187. -/
def mpiBlocks (nsup ndim : ℕ) : List ℕ := [ndim * nsup, ndim * nsup, ndim * nsup, 1, 1, 1, 1, ndim, 1, 1, 1, 1]

/-- `disp[n]`: the address of a member of `tmp` less the address of `tmp`, core/mpi.c:188-206. -/
def disp (nsup ndim base : ℕ) (name : String) : ℕ := base + hoffset (ofPhoton nsup ndim) name - base

/-- `mpi_photon_type`, core/mpi.c:207. -/
def mpiType (nsup ndim base : ℕ) : List Entry :=
  (mpiNames.zip ((mpiBlocks nsup ndim).zip mpiTypes)).map fun p => ⟨disp nsup ndim base p.1, p.2.1, p.2.2⟩

/-- Extent of a type: its upper bound, padded to the largest alignment of its entries (its lower bound is 0 here). -/
def extent (T : List Entry) : ℕ := roundUp (T.foldr (fun e a => max (e.disp + e.blocklen * e.elem) a) 0) (T.foldr (fun e a => max e.elem a) 1)

/-- The bytes moved for element `k` of a message from a buffer described by `T` to one described by `U`. -/
def sendJobs (T U : List Entry) (k : ℕ) : List Job :=
  List.zipWith (fun e f => ⟨k * extent T + e.disp, k * extent U + f.disp, e.blocklen * e.elem⟩) T U

/-- `MPI_Sendrecv(ph_send_buf, n, mpi_photon_type, ..., ph_recv_buf, n, mpi_photon_type, ...)`, core/mpi.c:502-504, 527-529: each side has built the type on its own, from
a variable `tmp` at its own address. -/
def sendPackets {B : Type} (nsup ndim baseS baseR n : ℕ) (s d : Mem B) : Mem B :=
  run s d ((List.range n).flatMap (sendJobs (mpiType nsup ndim baseS) (mpiType nsup ndim baseR)))

end Nubhlight.PacketRecord
