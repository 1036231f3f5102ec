import Mathlib.Analysis.SpecialFunctions.Trigonometric.Basic
import Mathlib.Analysis.SpecialFunctions.Log.Basic
import Mathlib.Algebra.Order.Floor.Ring
import Mathlib.Algebra.BigOperators.Group.Finset.Basic
import Verif.Model.Coord

set_option autoImplicit false

/-!
# Recorded spectra

core/rad_utils.c `get_nuLnu_bin`, `bin_superphoton_direction`; core/diag.c `record_superphoton`, `bin_all_superphotons`; core/mpi.c
`mpi_reduce_nuLnu`. Real numbers stand for doubles; atomic additions make the sums independent of thread order. A conversion of NaN to an
integer and an index outside the array are `none`.
-/

namespace Nubhlight.Spectrum

/-! ## Reduction over ranks, one entry of the array -/

/-- `nuLnu` of every rank and the static buffer `nuLnu_local` of every rank, core/mpi.c:680, core/decs.h:358. -/
structure Red (K : Type*) where
  nuLnu : ℕ → K
  buf : ℕ → K

/-- What can happen to the entry: a packet recorded on a rank (core/diag.c:460-467), a reduction (dump: core/io.c:1061, restart:
core/io.c:1444) and `reset_dump_variables` (core/diag.c:26). -/
inductive Ev (K : Type*)
  | record (r : ℕ) (v : K)
  | reduce
  | reset

/-- `mpi_reduce_nuLnu` on `n` ranks, core/mpi.c:681-686: `MPI_Reduce` defines the buffer on rank 0 only; every rank copies its buffer. -/
def reduce {K : Type*} [AddCommMonoid K] (n : ℕ) (s : Red K) : Red K :=
  let buf := Function.update s.buf 0 (∑ r ∈ Finset.range n, s.nuLnu r)
  ⟨buf, buf⟩

def ev {K : Type*} [AddCommMonoid K] (n : ℕ) (s : Red K) : Ev K → Red K
  | .record r v => { s with nuLnu := Function.update s.nuLnu r (s.nuLnu r + v) }
  | .reduce => reduce n s
  | .reset => { s with nuLnu := fun _ => 0 }

/-- Static and global storage starts at zero. -/
def initial {K : Type*} [AddCommMonoid K] : Red K := ⟨fun _ => 0, fun _ => 0⟩

def runEv {K : Type*} [AddCommMonoid K] (n : ℕ) (l : List (Ev K)) : Red K := l.foldl (ev n) initial

/-! ## Bins -/

/-- Conversion of a double to `int`: truncation toward zero. -/
noncomputable def cInt (x : ℝ) : ℤ := if 0 ≤ x then ⌊x⌋ else ⌈x⌉

/-- `fmod`: the remainder with the sign of the dividend. -/
noncomputable def fmod (x y : ℝ) : ℝ := x - y * (cInt (x / y) : ℝ)

/-- `get_nuLnu_bin`, core/rad_utils.c:613-624; `th` is what `bl_coord` returns. -/
noncomputable def angleBins (nth nphi : ℕ) (th X3 : ℝ) : ℤ × ℤ :=
  let phi := fmod X3 (2 * Real.pi)
  (cInt (th / (Real.pi / nth)), cInt (phi / (2 * Real.pi / nphi)))

/-- Array extents and constants: `NULNU_IDX0` (core/decs.h:353-357), `NTH`, `NPHI`, `NU_BINS_SPEC`, logarithms of `numin`, `numax`,
`ME*CL*CL`, `HPL`, `DTd*T_unit`, `MAXNSCATT` and `DIAGNOSTICS_USE_RADTYPES`. -/
structure Cfg where
  n0 : ℕ
  nth : ℕ
  nphi : ℕ
  nnu : ℕ
  lnumin : ℝ
  lnumax : ℝ
  mec2 : ℝ
  hpl : ℝ
  DT : ℝ
  maxns : ℕ
  useTypes : Bool

/-- A packet: position-dependent polar angle, azimuth, `Kcov[2][0]`, weight, type, number of scatterings. -/
structure Pkt where
  th : ℝ
  X3 : ℝ
  K0 : ℝ
  w : ℝ
  type : ℤ
  nscatt : ℤ
  isTracer : Bool

abbrev Arr := ℤ × ℤ × ℤ × ℤ → ℝ

noncomputable def dlnu (c : Cfg) : ℝ := (c.lnumax - c.lnumin) / c.nnu

/-- The frequency bin, core/diag.c:450-452; `none`: the frequency is not positive, so that `log` gives no number. -/
noncomputable def nuBin (c : Cfg) (K0 : ℝ) : Option ℤ :=
  let nu := -K0 * c.mec2 / c.hpl
  if 0 < nu then some (cInt ((Real.log nu - c.lnumin) / dlnu c)) else none

/-- First index, core/diag.c:428-429, 457-469, core/rad_utils.c:661-673. -/
def firstIdx (c : Cfg) (type nscatt : ℤ) : ℤ := if c.useTypes then type else min nscatt c.maxns

/-- Inside the array. -/
def inArr (c : Cfg) (b : ℤ × ℤ × ℤ × ℤ) : Bool :=
  decide ((0 ≤ b.1 ∧ b.1 < c.n0) ∧ (0 ≤ b.2.1 ∧ b.2.1 < c.nth) ∧ (0 ≤ b.2.2.1 ∧ b.2.2.1 < c.nphi) ∧ (0 ≤ b.2.2.2 ∧ b.2.2.2 < c.nnu))

/-- An addition to one entry; `none` outside the array. -/
noncomputable def bump (c : Cfg) (A : Arr) (b : ℤ × ℤ × ℤ × ℤ) (v : ℝ) : Option Arr :=
  if inArr c b then some fun x => if x = b then A x + v else A x else none

/-- `record_superphoton`, core/diag.c:417-474 (the cell indices computed at 425-446 are unused), with the counter `step_rec`. -/
noncomputable def record (c : Cfg) (p : Pkt) (s : Arr × ℕ) : Option (Arr × ℕ) :=
  if p.isTracer then some s
  else (nuBin c p.K0).bind fun nub =>
    let ab := angleBins c.nth c.nphi p.th p.X3
    if 0 ≤ nub ∧ nub < c.nnu then
      (bump c s.1 (firstIdx c p.type p.nscatt, ab.1, ab.2, nub) (-(p.w * p.K0 * c.mec2 / (dlnu c * c.DT)))).map fun A => (A, s.2 + 1)
    else some s

/-- All packets that leave through the camera boundary. -/
noncomputable def recordAll (c : Cfg) : List Pkt → Arr × ℕ → Option (Arr × ℕ)
  | [], s => some s
  | p :: l, s => (record c p s).bind (recordAll c l)

/-- The sum of all entries. -/
noncomputable def sumArr (c : Cfg) (A : Arr) : ℝ :=
  ∑ b ∈ Finset.Ico (0 : ℤ) c.n0 ×ˢ Finset.Ico (0 : ℤ) c.nth ×ˢ Finset.Ico (0 : ℤ) c.nphi ×ˢ Finset.Ico (0 : ℤ) c.nnu, A b

/-! ## Directions of motion -/

/-- A packet with its covariant wave vector `Kcov[2]`. -/
structure Dir where
  K : Fin 4 → ℝ
  w : ℝ
  type : ℤ
  nscatt : ℤ
  isTracer : Bool

/-- The normalised components, core/rad_utils.c:643-647. -/
noncomputable def unitK (d : Dir) (mu : Fin 4) : ℝ := -d.K mu / d.K 0

/-- The angles of `cart_to_sph`, core/coord.c:540-550, of the normalised spatial components; `none` when the length is zero (0/0). -/
noncomputable def dirAngles (d : Dir) : Option (ℝ × ℝ) :=
  let x := unitK d 1
  let y := unitK d 2
  let z := unitK d 3
  let r := Real.sqrt (x * x + y * y + z * z)
  if r = 0 then none
  else
    let a := Complex.arg ⟨x, y⟩
    some (Real.arccos (z / r), if a < 0 then a + 2 * Real.pi else a)

/-- `bin_superphoton_direction`, core/rad_utils.c:626-675. -/
noncomputable def binDir (c : Cfg) (d : Dir) (A : Arr) : Option Arr :=
  if d.isTracer then some A
  else (nuBin c (d.K 0)).bind fun nub => (dirAngles d).bind fun a =>
    if 0 ≤ nub ∧ nub < c.nnu then
      bump c A (firstIdx c d.type d.nscatt, cInt (a.1 / (Real.pi / c.nth)), cInt (a.2 / (2 * Real.pi / c.nphi)), nub) d.w
    else some A

/-- `bin_all_superphotons`, core/diag.c:488-500. -/
noncomputable def binAll (c : Cfg) : List Dir → Arr → Option Arr
  | [], A => some A
  | d :: l, A => (binDir c d A).bind (binAll c l)

end Nubhlight.Spectrum
