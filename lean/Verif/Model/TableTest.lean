import Verif.Model.TestVerdict

set_option autoImplicit false

/-! # The test of tabulated equations of state (prob/table/problem.c, test/table.py)

Numbers are exact. What the table gives may also be infinite or not a number. Simplified: the printed errors are exact (`%e` keeps seven digits). -/

namespace Nubhlight.TableTest

open Nubhlight.TestVerdict

/-- A floating-point number. -/
inductive Num
  | num (q : ℚ)
  | inf
  | nan
deriving DecidableEq

/-- `fabs(v - t)`, as at prob/table/problem.c:243-248 of the differences of lines 147, 171, 177, 231. -/
def absErr (v : Num) (t : ℚ) : Num :=
  match v with
  | .num q => .num |q - t|
  | .inf => .inf
  | .nan => .nan

/-- `a > b`: false if one of them is not a number. -/
def Num.gt : Num → Num → Bool
  | .num a, .num b => decide (b < a)
  | .inf, .num _ => true
  | _, _ => false

/-- What a zone has looked up: temperature, pressure from density and energy, pressure from density and enthalpy, sound speed, energy from pressure;
and what the ideal gas has, prob/table/problem.c:104-112, 143-146, 170-178, 230. The two pressures have the same true value, the energy is that of
the zone. -/
structure Zone where
  temp : Num
  tempTrue : ℚ
  press : Num
  pressW : Num
  pressTrue : ℚ
  cs : Num
  csTrue : ℚ
  up : Num
  u : ℚ
deriving DecidableEq

/-- `fabs((v - t)/t) > m`, prob/table/problem.c:116, 148, 179, for `t` other than zero. -/
def tooFar (v : Num) (t m : ℚ) : Bool :=
  match v with
  | .num q => decide (m < |(q - t) / t|)
  | .inf => true
  | .nan => false

/-- Whether the program stops with an error in a zone, prob/table/problem.c:116-141, 148-164, 179-227; limits from lines 31-34. -/
def stops (z : Zone) : Bool :=
  tooFar z.temp z.tempTrue (1 / 10 ^ 7) || tooFar z.press z.pressTrue (1 / 10 ^ 7) || tooFar z.cs z.csTrue (1 / 10 ^ 3)

/-- `if (fabs(e) > l) l = fabs(e)` and `l = MY_MAX(fabs(e), l)`, prob/table/problem.c:243-248, core/decs.h:721: both keep `l` if the comparison is
false. -/
def larger (e l : Num) : Num := if e.gt l then e else l

/-- One of the four loops over the zones of a process, prob/table/problem.c:234-249. -/
def largest (err : Zone → Num) (zones : List Zone) : Num := zones.foldl (fun l z => larger (err z) l) (.num 0)

/-- `MPI_Allreduce` with `MPI_MAX`, prob/table/problem.c:250-253. -/
def overProcs (err : Zone → Num) (procs : List (List Zone)) : Num := procs.foldl (fun l zs => larger (largest err zs) l) (.num 0)

/-- The four errors in the order in which they are written, prob/table/problem.c:265-266. -/
def errPu (z : Zone) : Num := absErr z.press z.pressTrue
/-- See `errPu`. -/
def errPw (z : Zone) : Num := absErr z.pressW z.pressTrue
/-- See `errPu`. -/
def errCs (z : Zone) : Num := absErr z.cs z.csTrue
/-- See `errPu`. -/
def errUp (z : Zone) : Num := absErr z.up z.u

/-- The file `table_errors.txt`, if the program comes to write it. Simplified: if one process stops, all do. -/
def errors (procs : List (List Zone)) : Option (List Num) :=
  if procs.any (fun zs => zs.any stops) then none
  else some [overProcs errPu procs, overProcs errPw procs, overProcs errCs procs, overProcs errUp procs]

/-- How numpy's `loadtxt` and the comparison see a number: finite or not. -/
def Num.val : Num → Val
  | .num q => some q
  | _ => none

/-- test/table.py:39-47: without the file there is an exception and no `data.p`. -/
def script (procs : List (List Zone)) : Option Data :=
  match errors procs with
  | none => none
  | some e => some ⟨[[0, 1 / 3, 2 / 3, 1], [0, 0, 0, 0]], some [0, 1 / 3, 2 / 3, 1], some (e.map Num.val), none⟩

/-- Whether test/test_all.py prints PASS. -/
def passes (procs : List (List Zone)) : Bool :=
  match script procs with
  | none => false
  | some d => judge d == some true

end Nubhlight.TableTest
