import Mathlib.Algebra.Order.Floor.Ring
import Mathlib.Algebra.Order.Field.Basic
import Mathlib.Order.WithBot

set_option autoImplicit false

/-!
# Model of the array helpers in core/util.c:59-135

Arrays are lists. A read outside the array is `none`. `qsort` is represented by any sorted permutation of its input.
-/

namespace Nubhlight.Util

variable {K : Type*} [LinearOrder K]

/-- `find_min`, core/util.c:59-66; `INFINITY` is `⊤`. -/
def findMin (l : List K) : WithTop K := l.foldl (fun (m : WithTop K) (a : K) => if (a : WithTop K) < m then (a : WithTop K) else m) ⊤

/-- `find_max`, core/util.c:68-75; `-INFINITY` is `⊥`. -/
def findMax (l : List K) : WithBot K := l.foldl (fun (m : WithBot K) (a : K) => if (a : WithBot K) > m then (a : WithBot K) else m) ⊥

/-- `find_index`, core/util.c:77-83, scanning from index `i`. -/
def findIndexFrom (v : K) : List K → ℤ → ℤ
  | [], _ => -1
  | a :: l, i => if a ≥ v then i else findIndexFrom v l (i + 1)

/-- `find_index`, core/util.c:77-83. -/
def findIndex (v : K) (l : List K) : ℤ := findIndexFrom v l 0

/-- `find_median` after its `qsort`, core/util.c:87-93; `s` is the sorted array. -/
def medianSorted {K : Type*} [Field K] (s : List K) : Option K :=
  if s.length % 2 = 0 then
    match s[(s.length - 1) / 2]?, s[s.length / 2]? with
    | some a, some b => some ((a + b) / 2)
    | _, _ => none
  else s[s.length / 2]?

section Interp
variable {K : Type*} [Field K] [LinearOrder K] [IsStrictOrderedRing K] [FloorRing K]

/-- `SMALL`, core/decs.h:87. -/
def SMALL : K := 1 / 10 ^ 20

/-- Conversion of a double to `int`: truncation towards zero. -/
def trunc (v : K) : ℤ := if 0 ≤ v then ⌊v⌋ else ⌈v⌉

/-- Array read at a C index. -/
def rd (t : List K) (i : ℤ) : Option K := if 0 ≤ i then t[i.toNat]? else none

/-- `interp_1d`, core/util.c:96-135. A zero spacing (one node, or an empty range) makes the index undefined and is `none`. -/
def interp1d (x xmin xmax : K) (imin imax : ℤ) (tabx taby : List K) : Option K :=
  let x := if x < xmin then xmin else x
  let x := if x > xmax then xmax - SMALL else x
  let nx := imax - imin
  if nx - 1 = 0 then none
  else
    let dx := (xmax - xmin) / ((nx - 1 : ℤ) : K)
    if dx = 0 then none
    else
      let ix := trunc ((imin : K) + (x - xmin) / dx)
      match rd tabx ix, rd taby ix, rd taby (ix + 1) with
      | some tx, some y0, some y1 =>
        let delx := (x - tx) / dx
        some ((1 - delx) * y0 + delx * y1)
      | _, _, _ => none

end Interp

end Nubhlight.Util
