import Verif.Model.Rounding

set_option autoImplicit false

/-! # Model of zone lookup in floating-point arithmetic

As in `Model/Decomp.lean`, one coordinate, with every operation rounded by `rnd`. Integers are converted exactly (they are far below 2⁵³). -/

namespace Nubhlight.FloatZone

/-- `startx` and `dx` of a coordinate. -/
structure Axis where
  startx : ℚ
  dx : ℚ

/-- Ghost zones, core/decs.h:65. -/
def NG : ℕ := 3

/-- Coordinate of the centre of zone `i` of a rank whose first zone is `gs`, `coord`, core/coord.c:43, 59. -/
def centre (rnd : ℚ → ℚ) (ax : Axis) (gs : ℕ) (i : ℤ) : ℚ :=
  rnd (ax.startx + rnd (rnd (rnd (((i + gs : ℤ) : ℚ) + 1 / 2) - NG) * ax.dx))

/-- `startx_proc`, core/coord.c:453. -/
def startProc (rnd : ℚ → ℚ) (ax : Axis) (gs : ℕ) : ℚ := rnd (ax.startx + rnd (gs * ax.dx))

/-- `stopx_proc`, core/coord.c:456; `n` zones. -/
def stopProc (rnd : ℚ → ℚ) (ax : Axis) (gs n : ℕ) : ℚ := rnd (startProc rnd ax gs + rnd (ax.dx * n))

/-- Conversion to `int`. -/
def trunc (x : ℚ) : ℤ := if 0 ≤ x then ⌊x⌋ else ⌈x⌉

/-- The value `Xtoijk` converts, core/rad_utils.c:387. -/
def value (rnd : ℚ → ℚ) (ax : Axis) (gs : ℕ) (X : ℚ) : ℚ := rnd (rnd (rnd (rnd (X - ax.startx) / ax.dx) + NG) - gs)

/-- `Xtoijk`, core/rad_utils.c:386-390. -/
def index (rnd : ℚ → ℚ) (ax : Axis) (gs : ℕ) (X : ℚ) : ℤ := trunc (value rnd ax gs X)

end Nubhlight.FloatZone
