import Mathlib.Data.Int.Log
import Mathlib.Data.Rat.Floor
import Mathlib.Algebra.Order.Floor.Ring

set_option autoImplicit false

/-! # Floating-point numbers

The program computes in IEEE 754 `double` (`core/decs.h` uses `double` throughout). Most of the other models take exact arithmetic instead; this one
is for the places where what matters is the rounding itself. A format has `p` digits and a least exponent, no greatest one: overflow, infinities and
NaN are not modelled. An operation `+`, `-`, `*`, `/` of the program is the exact operation on rational numbers followed by rounding to nearest. -/

namespace Nubhlight.Rounding

/-- A binary format. -/
structure Fmt where
  p : ℕ
  emin : ℤ

/-- IEEE 754 binary64. -/
def double : Fmt := ⟨53, -1074⟩

/-- `x` is a number of the format (subnormal numbers included). -/
def IsF (f : Fmt) (x : ℚ) : Prop := ∃ m e : ℤ, f.emin ≤ e ∧ |m| < 2 ^ f.p ∧ x = m * 2 ^ e

/-- A rounding to nearest: the result is a number of the format, and none is closer. What happens to ties is left open. -/
def Nearest (f : Fmt) (rnd : ℚ → ℚ) : Prop := ∀ x, IsF f (rnd x) ∧ ∀ y, IsF f y → |rnd x - x| ≤ |y - x|

/-- Nearest integer, ties to even. -/
def roundEven (x : ℚ) : ℤ :=
  if Int.fract x < 1 / 2 then ⌊x⌋ else if Int.fract x > 1 / 2 then ⌊x⌋ + 1 else if ⌊x⌋ % 2 = 0 then ⌊x⌋ else ⌊x⌋ + 1

/-- Exponent of the last digit of a number of the size of `x`. -/
def lastDigit (f : Fmt) (x : ℚ) : ℤ := max f.emin (Int.log 2 |x| - ((f.p : ℤ) - 1))

/-- The rounding of IEEE 754 by default: to nearest, ties to even. -/
def rne (f : Fmt) (x : ℚ) : ℚ := roundEven (x / 2 ^ lastDigit f x) * 2 ^ lastDigit f x

end Nubhlight.Rounding
