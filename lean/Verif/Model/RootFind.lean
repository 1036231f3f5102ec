import Mathlib.Algebra.Order.Field.Basic

set_option autoImplicit false

/-!
# Model of the one-dimensional root finder, core/root_finding.c:32-315

Exact arithmetic in an ordered field; the function `f` has its parameters already applied. Infinities and NaN arise only
from the division by a vanishing slope, which is the failure outcome. The iteration counters `root_fcount` are
statistics and not modelled. The two unbounded loops of the bisection take fuel; running out of fuel (`none`) is kept
apart from every outcome of the program.
-/

namespace Nubhlight.RootFind

variable {K : Type*} [Field K] [LinearOrder K] [IsStrictOrderedRing K]

/-- Outcome: `ROOT_FAIL`, or `ROOT_SUCCESS` with `*xroot`. -/
inductive Res (K : Type*) where
  | fail
  | ok (x : K)

/-- One pass of the secant loop, core/root_finding.c:108-117; `none` when the new `x` is not finite (slope zero),
core/root_finding.c:118-159. -/
def secStep (f : K → K) (y xtol x : K) : Option K :=
  let dx := |x / 10000000| + xtol
  let dy := (f (x + dx) - f (x - dx)) / (2 * dx)
  if dy = 0 then none else some (x - (f x - y) / dy)

/-- The secant loop, core/root_finding.c:107-161; `n` further passes are allowed. Returns `(x, x_last)`. -/
def secLoop (f : K → K) (y xtol : K) : ℕ → K → Option (K × K)
  | 0, x => (secStep f y xtol x).map fun x' => (x', x)
  | n + 1, x =>
    match secStep f y xtol x with
    | none => none
    | some x' => if |x' - x| / (|x'| + xtol) > xtol then secLoop f y xtol n x' else some (x', x)

/-- `SECANT_NITER_MAX`, core/root_finding.c:16. -/
def SECANT_NITER_MAX : ℕ := 10

/-- Relative error in the target, core/root_finding.c:39,46,171. -/
def relErr (f : K → K) (y ytol x : K) : K := |f x - y| / (|f x| + ytol)

/-- `root_secant`, core/root_finding.c:98-210. -/
def secant (f : K → K) (y xguess xtol ytol : K) : Res K :=
  match secLoop f y xtol (SECANT_NITER_MAX - 1) xguess with
  | none => .fail
  | some (x, xlast) => if |x - xlast| > xtol ∧ |relErr f y ytol x| > ytol then .fail else .ok x

/-- The growing search for a sign change around the guess, core/root_finding.c:222-229. -/
def bracket (f : K → K) (y xmin xmax x : K) : ℕ → K → Option (K × K)
  | 0, _ => none
  | n + 1, grow =>
    let dx := |grow * x|
    let xl := x - dx
    let xr := x + dx
    if (f xl - y) * (f xr - y) > 0 ∧ xl ≥ xmin ∧ xr ≤ xmax then bracket f y xmin xmax x n (grow * (11 / 10))
    else some (xl, xr)

/-- The halving loop, core/root_finding.c:276-286. `fl` is carried along as in the code. -/
def halve (f : K → K) (y xtol : K) : ℕ → K → K → K → Option (K × K)
  | 0, _, _, _ => none
  | n + 1, xl, xr, fl =>
    let xm := (xl + xr) / 2
    let fm := f xm - y
    if fl * fm ≤ 0 then
      if xm - xl > xtol then halve f y xtol n xl xm fl else some (xl, xm)
    else
      if xr - xm > xtol then halve f y xtol n xm xr fm else some (xm, xr)

/-- Force the bracket into the allowed interval and, if it shows no sign change, widen it to the ends,
core/root_finding.c:231-274; `none` is `ROOT_FAIL`. -/
def force (f : K → K) (y xmin xmax xl xr : K) : Option (K × K) :=
  let xr := if xr > xmax then xmax else xr
  let xl := if xl < xmin then xmin else xl
  if (f xl - y) * (f xr - y) > 0 then
    if (f xmin - y) * (f xr - y) > 0 then
      if (f xmin - y) * (f xmax - y) > 0 then none else some (xmin, xmax)
    else some (xmin, xr)
  else some (xl, xr)

/-- Nudge a guess off zero, core/root_finding.c:219-221. -/
def nudge (xtol x : K) : K := if |x| < xtol then x + 2 * xtol else x

/-- `root_bisect`, core/root_finding.c:212-315; outer `none` is out of fuel. -/
def bisect (f : K → K) (y xguess xmin xmax xtol : K) (n : ℕ) : Option (Res K) :=
  (bracket f y xmin xmax (nudge xtol xguess) n (1 / 100)).bind fun p =>
    match force f y xmin xmax p.1 p.2 with
    | none => some .fail
    | some (xl, xr) => (halve f y xtol n xl xr (f xl - y)).map fun q => .ok ((q.1 + q.2) / 2)

/-- Clamp of the guess, core/root_finding.c:53-56. -/
def clampGuess (xguess xmin xmax xtol : K) : K :=
  let g := if xguess ≥ xmax then xmax - xtol else xguess
  if g < xmin then xmin else g

/-- The range check after the bisection, core/root_finding.c:85-95. -/
def rangeCheck (xmin xmax : K) : Res K → Res K
  | .fail => .fail
  | .ok x => if x < xmin then .fail else if x > xmax then .fail else .ok x

/-- `find_root`, core/root_finding.c:32-96. -/
def findRoot (f : K → K) (y xguess xmin xmax xtol ytol : K) (n : ℕ) : Option (Res K) :=
  if relErr f y ytol xmax < ytol then some (.ok xmax)
  else if relErr f y ytol xmin < ytol then some (.ok xmin)
  else
    let g := clampGuess xguess xmin xmax xtol
    match secant f y g xtol ytol with
    | .ok x => some (.ok x)
    | .fail => (bisect f y g xmin xmax xtol n).map (rangeCheck xmin xmax)

end Nubhlight.RootFind
