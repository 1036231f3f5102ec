import Mathlib.Data.Rat.Defs
import Mathlib.Algebra.Order.Ring.Rat
import Mathlib.Algebra.Order.Ring.Abs
import Mathlib.Algebra.Order.Field.Basic

set_option autoImplicit false

/-! # How the test suite judges its tests (test/test_all.py)

Numbers are exact. A result that is not a finite number (`nan` or infinite, which numpy produces without an error) is `none` in `Val`. -/

namespace Nubhlight.TestVerdict

/-- A floating-point number: finite, or `none` for `nan` and the infinities. -/
abbrev Val := Option ℚ

/-- `interp1d` with its defaults, as used at test/test_all.py:133: straight lines between the nodes, an error (`none`) outside. Simplified: nodes in the order of their positions (the library sorts them). -/
def interp : List (ℚ × ℚ) → ℚ → Option ℚ
  | [], _ => none
  | [(a, ya)], x => if x = a then some ya else none
  | (a, ya) :: (b, yb) :: l, x =>
    if x < a then none
    else if x ≤ b then some (ya + (yb - ya) / (b - a) * (x - a))
    else interp ((b, yb) :: l) x

/-- One term of the sum, test/test_all.py:137-142. Division by zero gives `nan` or infinity. -/
def term (nodenom : Bool) (y : Val) (f : ℚ) : Val :=
  match y with
  | none => none
  | some y => if nodenom then some |y - f| else if |(y + f) / 2| = 0 then none else some (|y - f| / |(y + f) / 2|)

/-- The loop test/test_all.py:134-142 over the compared points. The outer `none` is an exception, raised outside the range of the reference; the inner one a sum that is not finite. -/
def total (nodenom : Bool) (ref : List (ℚ × ℚ)) : List (ℚ × Val) → Val → Option Val
  | [], s => some s
  | (x, y) :: l, s =>
    match interp ref x with
    | none => none
    | some f => total nodenom ref l (match s, term nodenom y f with | some s, some t => some (s + t) | _, _ => none)

/-- `L1_norm`, test/test_all.py:123-144. `none` is an exception: positions and values of unequal number, nothing to compare, or a position outside the reference. The sum is divided by the last index `n`, not by the number of points; for a single point that is a division by zero (numpy: `nan` or infinity). Simplified: `sanitize_array` (113-121), which reshapes columns to rows, is left out. -/
def l1Norm (xa ya xb : List ℚ) (yb : List Val) : Option Val :=
  match xa, ya, xb, yb with
  | [_], [a], [_], [b] =>
    match b with
    | none => some none
    | some b => if |b| ≤ 1 / 10 ^ 12 then some (some |a - b|) else some (some |(a - b) / b|)
  | xa, ya, xb, yb =>
    match xa, xb with
    | x0 :: _, z0 :: _ =>
      if xa.length ≠ ya.length then none else
      let xb' := if z0 < x0 then xb.tail else xb
      let yb' := if z0 < x0 then yb.tail else yb
      if yb'.length < xb'.length then none else
      if xb' = [] then none else
      match total (ya.all fun y => y ≤ 1 / 10 ^ 12) (xa.zip ya) (xb'.zip yb') (some 0) with
      | none => none
      | some none => some none
      | some (some s) => if xb'.length - 1 = 0 then some none else some (some (s / ((xb'.length - 1 : ℕ) : ℚ)))
    | _, _ => none

/-- What a test script leaves in `data.p`: the lists under `SOL` and `CODE` and the threshold if it gives one. A missing key is an empty list (both end in an exception). -/
structure Data where
  sol : List (List ℚ)
  codeX : Option (List ℚ)
  codeY : Option (List Val)
  threshold : Option ℚ
deriving DecidableEq

/-- test/test_all.py:171-187: `none` an exception, otherwise whether PASS is printed. `nan < x` and `inf < x` are false. -/
def judge (d : Data) : Option Bool :=
  match d.sol[0]?, d.sol[1]?, d.codeX, d.codeY with
  | some xa, some ya, some xb, some yb =>
    match l1Norm xa ya xb yb with
    | none => none
    | some none => some false
    | some (some e) => some (decide (e < d.threshold.getD (1 / 100)))
  | _, _, _, _ => none

/-- What one test script does when the suite starts it: how much it writes to its error output, and what it leaves in `data.p`, if it comes that far. -/
structure Script where
  stderr : ℕ
  result : Option Data

/-- Bytes that fit into the pipe that nobody reads (test/test_all.py:158; only the standard output is read, 160-164). Linux. -/
def pipeSize : ℕ := 65536

/-- How a run of the suite ends. -/
inductive End
  | hangs
  | raises
  | passed
  | failed
deriving DecidableEq, Repr

/-- The loop test/test_all.py:146-199 over the tests. `p` is the content of `data.p`, if there is such a file, `failed` the flag `FAIL`. A script that wrote nothing leaves the file as it is; whether it ended without an error is not looked at (166-169). -/
def suite : List Script → Option Data → Bool → End
  | [], _, failed => if failed then End.failed else End.passed
  | s :: l, p, failed =>
    if pipeSize < s.stderr then End.hangs else
    match (s.result.orElse fun _ => p) with
    | none => End.raises
    | some d =>
      match judge d with
      | none => End.raises
      | some ok => suite l none (failed || !ok)

end Nubhlight.TestVerdict
