import Verif.Model.Rounding
import Verif.Model.FloatZone
import Mathlib.Analysis.SpecialFunctions.Log.Base

/-!
# The lookup of cross sections in floating-point arithmetic

core/scattering.c:695-705 (`init_hc_table`) and 765-797 (`interpolate_hc_table`), one axis of the table.
Every operation is rounded by `rnd`; the decimal logarithm of the library is a parameter `lg`. That
`lg` is correctly rounded is a hypothesis of the theorems that need it (`Props/FloatTable.lean`).
-/

set_option autoImplicit false

namespace Nubhlight.FloatTable

open Rounding

/-- `(lT - lmint) / dlT`, core/scattering.c:790-793. -/
def position (rnd : ℚ → ℚ) (lo d x : ℚ) : ℚ := rnd (rnd (x - lo) / d)

/-- The index of the entry, core/scattering.c:790-791: the cast to `int` cuts off. -/
def index (rnd : ℚ → ℚ) (lo d x : ℚ) : ℤ := FloatZone.trunc (position rnd lo d x)

/-- The weight of the next entry, core/scattering.c:792-793. -/
def weight (rnd : ℚ → ℚ) (lo d x : ℚ) : ℚ := rnd (position rnd lo d x - index rnd lo d x)

/-- `NT`, core/scattering.c:15: the entries of the axis of temperatures are `0` to `NT`. -/
def NT : ℕ := 90

/-- `dlT`, core/scattering.c:703: the decimal logarithm of `MAXT / MINT = 1e14`, which is 14, divided by
`NT`. -/
def dlT (rnd : ℚ → ℚ) : ℚ := rnd (14 / NT)

/-- `lmint`, core/scattering.c:705: the decimal logarithm of `MINT = 0.001`, which is -3 as rounded. -/
def lmint : ℚ := -3

/-- The index on the axis of temperatures, core/scattering.c:787-791; `none`: not in the range of the
table (`MINT`, `MAXT` as rounded, 18-19). `lg` is `log10`. -/
def indexT (rnd lg : ℚ → ℚ) (theta : ℚ) : Option ℤ :=
  if rnd (1 / 1000) < theta ∧ theta < 10 ^ 11 then some (index rnd lmint (dlT rnd) (lg theta)) else none

end Nubhlight.FloatTable
