import Verif.Model.Util
import Mathlib.Analysis.SpecialFunctions.Log.Base
import Mathlib.Analysis.SpecialFunctions.Pow.Real
import Mathlib.Data.List.OfFn
import Mathlib.Algebra.BigOperators.Group.Finset.Basic
import Mathlib.Algebra.Order.Floor.Ring

set_option autoImplicit false

/-! # Model of the tables of neutrino emissivity and opacity

core/opac_emis_hdf.c:31-39, 64-148, 165-212, 214-284 (reading and looking up a table) and core/opac_emis_neutrino.c:188-221, 242-260 (writing
one). Arithmetic is exact. -/

namespace Nubhlight.OpacTable

open Nubhlight.Util

/-- One axis of a table as read from the file, core/opac_emis_hdf.c:104-127: number of nodes and nodes. The spacing is taken from the first two. -/
structure Axis where
  n : ℕ
  tab : ℕ → ℝ

def Axis.lo (a : Axis) : ℝ := a.tab 0
def Axis.hi (a : Axis) : ℝ := a.tab (a.n - 1)
def Axis.d (a : Axis) : ℝ := a.tab 1 - a.tab 0

/-- `catch_ye`, core/opac_emis_hdf.c:266-274. -/
noncomputable def catchYe (a : Axis) (ye : ℝ) : ℝ :=
  if ye < a.lo then a.lo else if ye ≥ a.hi then a.hi - 1 / 10 ^ 10 / 100 else ye

/-- `rho2lrho` and `T2lT`, core/opac_emis_hdf.c:255-264, 276-284: the limits compared with are powers of ten of the ends of the axis, lines
121-124. -/
noncomputable def toLog (a : Axis) (x : ℝ) : ℝ :=
  if x < (10 : ℝ) ^ a.lo then a.lo else if x ≥ (10 : ℝ) ^ a.hi then a.hi - 1 / 10 ^ 10 / 100 else Real.logb 10 x

/-- Index and offset of a value along an axis, core/opac_emis_hdf.c:222-229. `none`: the index or the next one is not a node of the axis. -/
noncomputable def locate (a : Axis) (x : ℝ) : Option (ℕ × ℝ) :=
  let i := trunc ((x - a.lo) / a.d)
  if 0 ≤ i ∧ i + 1 < a.n then some (i.toNat, (x - a.tab i.toNat) / a.d) else none

/-- `ELEM5D` and `ELEM5DGRID`, core/opac_emis_hdf.c:34-39: position in a table with `nnu` frequencies and `types` types. -/
def elem (types nrho nt nnu : ℕ) (irho iT iY it inu : ℕ) : ℕ := nnu * (types * (nrho * (iY * nt + iT) + irho) + it) + inu

/-- The eight-corner average of `interp_3d_to_1d` for one type and frequency, core/opac_emis_hdf.c:233-249. -/
def corners (f : ℕ → ℕ → ℕ → ℝ) (ir iT iY : ℕ) (dr dT dY : ℝ) : ℝ :=
  (1 - dr) * (1 - dT) * (1 - dY) * f ir iT iY + dr * (1 - dT) * (1 - dY) * f (ir + 1) iT iY +
    (1 - dr) * dT * (1 - dY) * f ir (iT + 1) iY + dr * dT * (1 - dY) * f (ir + 1) (iT + 1) iY +
    (1 - dr) * (1 - dT) * dY * f ir iT (iY + 1) + dr * (1 - dT) * dY * f (ir + 1) iT (iY + 1) +
    (1 - dr) * dT * dY * f ir (iT + 1) (iY + 1) + dr * dT * dY * f (ir + 1) (iT + 1) (iY + 1)

/-- A table in memory: its axes and `tab_J` or `tab_K`. -/
structure Table where
  rho : Axis
  T : Axis
  Ye : Axis
  types : ℕ
  nnu : ℕ
  val : ℕ → ℝ

/-- `interp_3d_to_1d`, core/opac_emis_hdf.c:214-253, for one type and frequency. -/
noncomputable def lookup (t : Table) (rho T Ye : ℝ) (it inu : ℕ) : Option ℝ :=
  (locate t.rho (toLog t.rho rho)).bind fun r =>
    (locate t.T (toLog t.T T)).bind fun s =>
      (locate t.Ye (catchYe t.Ye Ye)).map fun y =>
        corners (fun a b c => t.val (elem t.types t.rho.n t.T.n t.nnu a b c it inu)) r.1 s.1 y.1 r.2 s.2 y.2

/-- Where `opac_emis_to_hdf` stores the value of type `it` and frequency `inu` in a zone of the table, core/opac_emis_neutrino.c:216-218: the zone
starts at `e`, and within it frequencies run fastest (lines 139-146). `types` and `nnu = NU_BINS + 1` are those of the program that writes. -/
def written (types nrho nt nnu : ℕ) (irho iT iY it inu : ℕ) : ℕ :=
  (nrho * (iY * nt + iT) + irho) * types * nnu + (it * nnu + inu)

/-- One row of the table in the file as the reader addresses it, core/opac_emis_hdf.c:134: `NNu` values from `elem4d` on, out of a file holding
the list `vals`. What is past the end of the file's data was never read and is left out. -/
def rowFrom (vals : List ℝ) (start len : ℕ) : List ℝ := (vals.drop start).take len

/-- The values of one row on the reader's own frequencies, core/opac_emis_hdf.c:135-141: `lnu` are the frequencies in the file, `x` one of the
reader's. `interp_1d` is given a pointer into the whole table, so it may read past the row: `rest` is what follows it. -/
noncomputable def regrid (lnu row rest : List ℝ) (x : ℝ) : Option ℝ :=
  match lnu.head?, lnu.getLast? with
  | some a, some b => interp1d x a b 0 lnu.length lnu (row ++ rest)
  | _, _ => none

/-- The frequency groups, core/opac_emis_hdf.c:66-77, core/opac_emis_neutrino.c:53-64, as logarithms. -/
noncomputable def lnuGroup (numin numax : ℝ) (bins n : ℕ) : ℝ := n * ((Real.log numax - Real.log numin) / bins) + Real.log numin

/-- `int_jnudnudOmega_hdf` and `int_jnudnudOmega_burrows`, core/opac_emis_hdf.c:186-195, core/opac_emis_neutrino.c:111-120. -/
noncomputable def totalJ (numin numax : ℝ) (bins types : ℕ) (jgrp : ℕ → ℕ → ℝ) : ℝ :=
  (∑ it ∈ Finset.range types, ∑ n ∈ Finset.range (bins + 1), jgrp it n * Real.exp (lnuGroup numin numax bins n)) *
    (4 * Real.pi * ((Real.log numax - Real.log numin) / bins))

end Nubhlight.OpacTable
