import Mathlib.Analysis.SpecialFunctions.Log.Base
import Mathlib.Analysis.SpecialFunctions.Pow.Real
import Verif.Model.Util

set_option autoImplicit false

/-!
# Tabulated equation of state

core/eos_stellar_collapse.c and core/eos_stellar_collapse.h: table indexing, clamps, interpolation, bounds tables, unit
conversions. The macro settings are those of the header (lines 115-136): no energy shift (`e_shift = 0` after
core/eos_stellar_collapse.c:335, `u_shift = 0` at 421), smoothing on. Reading the HDF5 file is in `TableLoad`; `Axis` and the
table lists hold what it yields. Reading past the end of an array is `none`.
-/

namespace Nubhlight.EosTable
open Nubhlight.Util (rd trunc)

section Interp
variable {K : Type*} [Field K] [LinearOrder K] [IsStrictOrderedRing K] [FloorRing K]

/-- One independent variable: number of points, `tab_x_min`, `tab_x_max`, `tab_dx` and the array, core/eos_stellar_collapse.c:347-362. -/
structure Axis (K : Type*) where
  n : ℕ
  lo : K
  hi : K
  d : K
  x : List K

/-- How `EOS_SC_init` sets the scalars from the array, core/eos_stellar_collapse.c:348-350,354-356,360-362. `none` for an empty
array or a single point. -/
def Axis.init (n : ℕ) (x : List K) : Option (Axis K) :=
  match rd x 0, rd x (n - 1) with
  | some lo, some hi => if (n : ℤ) - 1 = 0 then none else some ⟨n, lo, hi, (hi - lo) / ((n : K) - 1), x⟩
  | _, _ => none

/-- `TABLE_TOL / 100`, core/eos_stellar_collapse.h:22. -/
def tol : K := 1 / 10 ^ 10 / 100

/-- `catch_ye`, `catch_lT`, `catch_s`, `catch_hm1`, core/eos_stellar_collapse.c:1500-1508,1523-1553: the same code with
different bounds. -/
def clamp (lo hi v : K) : K := if v < lo then lo else if hi ≤ v then hi - tol else v

/-- `catch_lrho`, core/eos_stellar_collapse.c:1447-1455. -/
def clampLrho (lo hi v : K) : K := if v < lo then lo else if hi < v then hi - tol else v

/-- The three axes. -/
structure Axes (K : Type*) where
  r : Axis K
  t : Axis K
  y : Axis K

/-- `EOS_ELEM`, core/eos_stellar_collapse.h:135. -/
def elem (A : Axes K) (ir iT iY : ℤ) : ℤ := (A.r.n : ℤ) * (iY * A.t.n + iT) + ir

/-- `EOS_SC_interp`, core/eos_stellar_collapse.c:1150-1177. -/
def interp3 (A : Axes K) (tab : List K) (lrho lT ye : K) : Option K :=
  let lT2 := clamp A.t.lo A.t.hi lT
  let ye2 := clamp A.y.lo A.y.hi ye
  let lrho2 := clampLrho A.r.lo A.r.hi lrho
  if A.r.d = 0 ∨ A.t.d = 0 ∨ A.y.d = 0 then none
  else
    let i := trunc ((lrho2 - A.r.lo) / A.r.d)
    let j := trunc ((lT2 - A.t.lo) / A.t.d)
    let k := trunc ((ye2 - A.y.lo) / A.y.d)
    (rd A.r.x i).bind fun xr => (rd A.t.x j).bind fun xt => (rd A.y.x k).bind fun xy =>
    let a := (lrho - xr) / A.r.d
    let b := (lT - xt) / A.t.d
    let c := (ye - xy) / A.y.d
    (rd tab (elem A i j k)).bind fun f000 => (rd tab (elem A (i + 1) j k)).bind fun f100 =>
    (rd tab (elem A i (j + 1) k)).bind fun f010 => (rd tab (elem A (i + 1) (j + 1) k)).bind fun f110 =>
    (rd tab (elem A i j (k + 1))).bind fun f001 => (rd tab (elem A (i + 1) j (k + 1))).bind fun f101 =>
    (rd tab (elem A i (j + 1) (k + 1))).bind fun f011 => (rd tab (elem A (i + 1) (j + 1) (k + 1))).bind fun f111 =>
    some ((1 - a) * (1 - b) * (1 - c) * f000 + a * (1 - b) * (1 - c) * f100 + (1 - a) * b * (1 - c) * f010
      + a * b * (1 - c) * f110 + (1 - a) * (1 - b) * c * f001 + a * (1 - b) * c * f101 + (1 - a) * b * c * f011
      + a * b * c * f111)

/-- `interp_2d`, core/eos_stellar_collapse.c:1179-1194. The indices are the textual expansions of `MMA_ELEM`
(core/eos_stellar_collapse.h:136), whose arguments are not parenthesised: `Nrho * iY + 1 + irho` for `(irho, iY + 1)`. -/
def interp2 (A : Axes K) (tab : List K) (lrho ye : K) : Option K :=
  if A.r.d = 0 ∨ A.y.d = 0 then none
  else
    let i := trunc ((lrho - A.r.lo) / A.r.d)
    let k := trunc ((ye - A.y.lo) / A.y.d)
    let n : ℤ := A.r.n
    (rd A.r.x i).bind fun xr => (rd A.y.x k).bind fun xy =>
    let a := (lrho - xr) / A.r.d
    let c := (ye - xy) / A.y.d
    (rd tab (n * k + i)).bind fun f00 => (rd tab (n * k + i + 1)).bind fun f10 =>
    (rd tab (n * k + 1 + i)).bind fun f01 => (rd tab (n * k + 1 + i + 1)).bind fun f11 =>
    some ((1 - a) * (1 - c) * f00 + a * (1 - c) * f10 + (1 - a) * c * f01 + a * c * f11)

/-- Inner loop of `fill_max_min_2d`, core/eos_stellar_collapse.c:1337-1345: largest and smallest entry over temperature. The
caller guarantees that the table has the nominal size (`none` otherwise). -/
def maxMinOverT (A : Axes K) (tab : List K) (ir iY : ℤ) : List ℕ → WithBot K × WithTop K → Option (WithBot K × WithTop K)
  | [], m => some m
  | iT :: l, m => (rd tab (elem A ir iT iY)).bind fun v =>
      maxMinOverT A tab ir iY l
        (if m.1 < (v : WithBot K) then (v : WithBot K) else m.1, if (v : WithTop K) < m.2 then (v : WithTop K) else m.2)

/-- Memory of the two bounds tables, indexed by C index. -/
abbrev Mem (K : Type*) := ℤ → WithBot K × WithTop K

/-- `fill_max_min_2d`, core/eos_stellar_collapse.c:1331-1350; here the macro arguments are single names. -/
def fillMaxMin (A : Axes K) (tab : List K) (m : Mem K) : Option (Mem K) :=
  ((List.range A.r.n).flatMap fun ir => (List.range A.y.n).map fun iY => (ir, iY)).foldlM
    (fun (m : Mem K) (p : ℕ × ℕ) =>
      (maxMinOverT A tab p.1 p.2 (List.range A.t.n) (⊥, ⊤)).map fun v =>
        Function.update m ((A.r.n : ℤ) * p.2 + p.1) v) m

/-- `catch_var_2d` after its two lookups and `catch_var_2d_monotone` after its two lookups,
core/eos_stellar_collapse.c:1367-1373,1378-1384. -/
def catchVar (varmin varmax var : K) : K :=
  if var ≤ varmin then varmin + tol else if varmax ≤ var then varmax - tol else var

/-- The value stored in the sound-speed table, core/eos_stellar_collapse.c:514,525; `small` is `SMALL`. -/
def cs2Stored (small cs2 : K) : K := min (max cs2 (10 * small)) (1 - 10 * small)

/-- `w_shift` and `h_shift`, core/eos_stellar_collapse.c:462-471. -/
def shiftOf (small m : K) : K := if m ≤ 0 then -(101 / 100) * (m - small) else 0

/-- The clamp of `EOS_SC_gamma`, core/eos_stellar_collapse.c:676-680. -/
def gammaClamp (g : K) : K :=
  let g := if g < 11 / 10 then 11 / 10 else g
  if g > 2 then 2 else g

/-- `do_atm_fixup`, core/eos_stellar_collapse.c:573-579, with `IS_ATM = 0` and `NOT_ATM = 1`. -/
def atmClamp (isAtm notAtm v : K) : K :=
  let v := if v < isAtm then isAtm else v
  if v > notAtm then notAtm else v

end Interp

/-! ## Logarithms and units -/

/-- `log10`. -/
noncomputable def log10 (x : ℝ) : ℝ := Real.logb 10 x

/-- `pow(10., x)`. -/
noncomputable def exp10 (x : ℝ) : ℝ := (10 : ℝ) ^ x

/-- `u2e`, core/eos_stellar_collapse.c:1406-1408; `none` for a zero density. -/
noncomputable def u2e (uShift rho u : ℝ) : Option ℝ := if rho = 0 then none else some ((u - uShift) / rho)

/-- `e2u`, core/eos_stellar_collapse.c:1410-1412. -/
def e2u (uShift rho e : ℝ) : ℝ := e * rho + uShift

/-- `le2e`, core/eos_stellar_collapse.c:1414. -/
noncomputable def le2e (eShift le : ℝ) : ℝ := exp10 le - eShift

/-- `e2le`, core/eos_stellar_collapse.c:1416; `none` where the logarithm is not defined. -/
noncomputable def e2le (eShift e : ℝ) : Option ℝ := if e + eShift ≤ 0 then none else some (log10 (e + eShift))

/-- `catch_rho`, `catch_press` (shift 0), `catch_e` and `catch_w`, core/eos_stellar_collapse.c:1436-1445,1457-1485: linear
bounds `vmin, vmax`, logarithmic bounds `lo, hi`. -/
noncomputable def clampLog (shift vmin vmax lo hi v : ℝ) : ℝ :=
  if v < vmin then lo else if vmax ≤ v then hi - tol else log10 (v + shift)

/-- `EOS_SC_get_minu` with `OLD_U_FLOORS` off, core/eos_stellar_collapse.c:888-902, with the table lookup of the lowest
specific energy at the clamped density as a parameter. -/
noncomputable def getMinu (Uunit : ℝ) (eMin : ℝ → ℝ) (lrhoOf : ℝ → ℝ) (rho : ℝ) : ℝ := e2u 0 rho (eMin (lrhoOf rho)) / Uunit

/-- The call in `EOS_SC_u_floor`, core/eos_stellar_collapse.c:904-912: the density floor is converted to cgs first. -/
noncomputable def uFloorMinu (RHOunit Uunit : ℝ) (eMin lrhoOf : ℝ → ℝ) (rhoflr : ℝ) : ℝ :=
  getMinu Uunit eMin lrhoOf (rhoflr * RHOunit)

/-- The calls in `fixup1zone` (core/fixup.c:225) and `EOS_u_press` (core/eos.c:289): the density is in code units. -/
noncomputable def atmosphereU (Uunit : ℝ) (eMin lrhoOf : ℝ → ℝ) (rho : ℝ) : ℝ := getMinu Uunit eMin lrhoOf rho

end Nubhlight.EosTable
