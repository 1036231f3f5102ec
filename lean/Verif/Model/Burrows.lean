import Mathlib.Analysis.SpecialFunctions.Log.Basic
import Mathlib.Algebra.Order.Floor.Ring

set_option autoImplicit false

/-! # Model of the tabulated neutrino opacities read by the Fortran module

core/opacity_table_module.f90:68-267 (looking up a state), 360-383, 396-419, 431-454, 467-490 (putting the table on the energies of the run) and
core/opac_emis_neutrino.c:32-37, 51-71, 76-82, 147-183 (its callers).

Arithmetic is exact (the module keeps tables in single precision). Reading the two files and sending their contents to all processes is left out.
Reading an array out of bounds is `none`. -/

namespace Nubhlight.Burrows

/-- `idint`: truncation towards zero. -/
noncomputable def idint (x : ℝ) : ℤ := if 0 ≤ x then ⌊x⌋ else ⌈x⌉

/-! ## Looking up a state -/

/-- The range and number of points of one direction of the table, core/opacity_table_module.f90:312-313. -/
structure Dir where
  lo : ℝ
  hi : ℝ
  n : ℕ

/-- One table of logarithms, for one group: densities, temperatures and electron fractions, with entries counted from one. -/
structure Table where
  rho : Dir
  temp : Dir
  ye : Dir
  val : ℤ → ℤ → ℤ → ℝ

/-- A read of `absopac(:,jr,jt,jye)` and the like. -/
noncomputable def Table.rd (t : Table) (i j k : ℤ) : Option ℝ :=
  if (1 ≤ i ∧ i ≤ t.rho.n) ∧ (1 ≤ j ∧ j ≤ t.temp.n) ∧ (1 ≤ k ∧ k ≤ t.ye.n) then some (t.val i j k) else none

/-- The index of a cell, core/opacity_table_module.f90:139, 142, 149-150, and likewise 140-148 for logarithms: `x` is the coordinate. -/
noncomputable def cellIdx (lo hi : ℝ) (n : ℕ) (x : ℝ) : ℤ :=
  let j := 1 + idint ((x - lo) / (hi - lo) * ((n : ℝ) - 1))
  let j := if j < 1 then 1 else j
  if j > (n : ℤ) - 1 then (n : ℤ) - 1 else j

/-- The coordinate of point `j`, core/opacity_table_module.f90:152-155, 159-162, 166-167. -/
noncomputable def point (lo hi : ℝ) (n : ℕ) (j : ℤ) : ℝ := lo + (hi - lo) * ((j : ℝ) - 1) / ((n : ℝ) - 1)

/-- The weight of the upper end of a cell, core/opacity_table_module.f90:156, 163, 168. -/
noncomputable def weight (lo hi : ℝ) (n : ℕ) (j : ℤ) (x : ℝ) : ℝ := (x - point lo hi n j) / (point lo hi n (j + 1) - point lo hi n j)

/-- The eight terms, core/opacity_table_module.f90:192-210. -/
noncomputable def combine (t : Table) (jr jt jye : ℤ) (dri dti dyei : ℝ) : Option ℝ :=
  (t.rd jr jt jye).bind fun v1 => (t.rd (jr + 1) jt jye).bind fun v2 => (t.rd jr (jt + 1) jye).bind fun v3 =>
  (t.rd (jr + 1) (jt + 1) jye).bind fun v4 => (t.rd jr jt (jye + 1)).bind fun v5 => (t.rd (jr + 1) jt (jye + 1)).bind fun v6 =>
  (t.rd jr (jt + 1) (jye + 1)).bind fun v7 => (t.rd (jr + 1) (jt + 1) (jye + 1)).bind fun v8 =>
    some ((1 - dri) * (1 - dti) * (1 - dyei) * v1 + dri * (1 - dti) * (1 - dyei) * v2 + (1 - dri) * dti * (1 - dyei) * v3 +
      dri * dti * (1 - dyei) * v4 + (1 - dri) * (1 - dti) * dyei * v5 + dri * (1 - dti) * dyei * v6 + (1 - dri) * dti * dyei * v7 +
      dri * dti * dyei * v8)

/-- What a lookup does. -/
inductive Out where
  /-- the program stops, core/opacity_table_module.f90:121-124 -/
  | stop
  /-- a read out of bounds -/
  | bad
  | ok (v : ℝ)

/-- `get_opacity_emissivity` for one group and one table of logarithms per mass (absorption, scattering or emission),
core/opacity_table_module.f90:121-212 (and 214-224, 237-248). -/
noncomputable def lookup (t : Table) (rho temp yein : ℝ) : Out :=
  if yein > 1 then .stop
  else
    let ye := max (min yein t.ye.hi) t.ye.lo
    let tl := max (min (Real.log temp) (Real.log t.temp.hi)) (Real.log t.temp.lo)
    let rl := max (min (Real.log rho) (Real.log t.rho.hi)) (Real.log t.rho.lo)
    let jye := cellIdx t.ye.lo t.ye.hi t.ye.n ye
    let jr := cellIdx (Real.log t.rho.lo) (Real.log t.rho.hi) t.rho.n rl
    let jt := cellIdx (Real.log t.temp.lo) (Real.log t.temp.hi) t.temp.n tl
    let dri := weight (Real.log t.rho.lo) (Real.log t.rho.hi) t.rho.n jr rl
    let dri := if dri < 0 then 0 else dri
    let dti := weight (Real.log t.temp.lo) (Real.log t.temp.hi) t.temp.n jt tl
    let dti := if dti < 0 then 0 else dti
    let dyei := weight t.ye.lo t.ye.hi t.ye.n jye yein
    match combine t jr jt jye dri dti dyei with
    | none => .bad
    | some s => .ok (Real.exp s * rho)

/-! ## Energies and species -/

/-- The species of group `ng` (counted from one), core/opacity_table_module.f90:361-368. -/
def species (ngrp1 ngrp2 ng : ℕ) : ℕ := if ng > ngrp1 then (if ng > ngrp1 + ngrp2 then 3 else 2) else 1

/-- The entry below an energy and the weight of the one above, core/opacity_table_module.f90:330-332, 369-381: `e1` and `eN` are the first and last
energies in the table, `ngmax` their number. -/
noncomputable def energyCell (e1 eN : ℝ) (ngmax : ℕ) (e : ℝ) : ℤ × ℝ :=
  let frmin := Real.log e1
  let dfr := Real.log (eN / e1) / ((ngmax : ℝ) - 1)
  let el := Real.log e
  let jf := idint ((el - frmin) / dfr) + 1
  if jf < 1 then (1, 0)
  else if jf > (ngmax : ℤ) - 1 then ((ngmax : ℤ) - 1, 1)
  else (jf, (el - (frmin + ((jf : ℝ) - 1) * dfr)) / dfr)

/-- The value of a group, core/opacity_table_module.f90:382: `row` is `temp(i,j,k,:,igrp)`, counted from one. -/
noncomputable def regrid (e1 eN : ℝ) (ngmax : ℕ) (row : ℤ → ℝ) (e : ℝ) : Option ℝ :=
  let c := energyCell e1 eN ngmax e
  if 1 ≤ c.1 ∧ c.1 + 1 ≤ ngmax then some ((1 - c.2) * row c.1 + c.2 * row (c.1 + 1)) else none

/-- `egroup`, core/opac_emis_neutrino.c:57-63, in MeV. -/
noncomputable def egroup (hpl mev numin numax : ℝ) (bins n : ℕ) : ℝ :=
  hpl * Real.exp (n * ((Real.log numax - Real.log numin) / bins) + Real.log numin) / mev

/-- `opac_emis` for emissivities, core/opac_emis_neutrino.c:147-183, as called by `fill_opac_emis_burrows`, lines 76-82: `mem` is the array
`jgrp[RAD_NUM_TYPES][NU_BINS + 1]` before the call, row by row, and `out ng` what the Fortran module computes for group `ng` (counted from one) of
its `ngroups = 3*(NU_BINS + 1)`. `none`: written beyond the array. -/
noncomputable def fill (hpl mev : ℝ) (bins : ℕ) (out : ℕ → ℝ) (mem : List (Option ℝ)) : Option (List (Option ℝ)) :=
  let ngroups := 3 * (bins + 1)
  if mem.length < ngroups then none
  else some (((List.range ngroups).map fun n : ℕ => some (out (n + 1) * (hpl / mev))) ++ mem.drop ngroups)

end Nubhlight.Burrows
