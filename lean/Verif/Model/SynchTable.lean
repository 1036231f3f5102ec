import Verif.Model.Emissivity
import Mathlib.MeasureTheory.Integral.IntervalIntegral.Basic
import Mathlib.Analysis.SpecialFunctions.Log.Basic

set_option autoImplicit false

/-! # Model of the tables of synchrotron emission

core/emissivity.c:231-312, 346-369, 387-418: the two tables made at the start, their interpolation, and the emissivity per frequency, `Jnu_synch`,
from which frequencies of new packets are drawn.

Arithmetic is exact, the numerical quadrature of lines 263-264 returns the integral, and the Bessel function of line 272 is a parameter. Reading
a table outside its bounds is `none`. -/

namespace Nubhlight.SynchTable

open Nubhlight.Emissivity

/-- `THETAE_MIN` and `TMIN`, core/emissivity.c:234, 239. -/
noncomputable def thetaeMin : ℝ := 3 / 10

/-- `TMAX`, core/emissivity.c:240. -/
def tMax : ℝ := 100

/-- `KMIN`, core/emissivity.c:237. -/
noncomputable def kMin : ℝ := 2 / 1000

/-- `KMAX`, core/emissivity.c:238. -/
def kMax : ℝ := 10 ^ 7

/-- `jnu_integrand_synch`, core/emissivity.c:387-397. -/
noncomputable def integrand (k th : ℝ) : ℝ :=
  let sth := Real.sin th
  let x := k / sth
  if sth < 1 / 10 ^ 150 ∨ x > 2 * 10 ^ 8 then 0
  else sth * sth * (Real.sqrt x + cst * x ^ (1 / 6 : ℝ)) ^ 2 * Real.exp (-x ^ (1 / 3 : ℝ))

/-- A table of `n + 1` logarithms of `f` at points equally spaced in the logarithm, the loops of core/emissivity.c:250-254, 261-266, 270-273;
`n` is `NU_BINS`. -/
noncomputable def mkTable (n : ℕ) (lo hi : ℝ) (f : ℝ → ℝ) : List ℝ :=
  (List.range (n + 1)).map fun k : ℕ => Real.log (f (Real.exp (k * (Real.log (hi / lo) / n) + Real.log lo)))

/-- The table `F_synch`, core/emissivity.c:261-266. -/
noncomputable def fTable (n : ℕ) : List ℝ :=
  mkTable n kMin kMax fun k => 4 * Real.pi * ∫ th in (0 : ℝ)..Real.pi / 2, integrand k th

/-- The table `K2`, core/emissivity.c:270-273; `bes x` is the Bessel function of order two. -/
noncomputable def k2Table (n : ℕ) (bes : ℝ → ℝ) : List ℝ := mkTable n thetaeMin tMax fun t => bes (1 / t)

/-- Conversion of a `double` to `int`, core/emissivity.c:283, 299 (truncation; overflow left out). -/
noncomputable def trunc (x : ℝ) : ℤ := if 0 ≤ x then ⌊x⌋ else ⌈x⌉

/-- An array read. -/
def rd (t : List ℝ) (i : ℤ) : Option ℝ := if 0 ≤ i ∧ i < t.length then t[i.toNat]? else none

/-- The interpolation of core/emissivity.c:280-286 and 296-302. -/
noncomputable def interp (n : ℕ) (lo hi : ℝ) (t : List ℝ) (x : ℝ) : Option ℝ :=
  let d := (Real.log x - Real.log lo) / (Real.log (hi / lo) / n)
  let i := trunc d
  let di := d - i
  (rd t i).bind fun a => (rd t (i + 1)).bind fun b => some (Real.exp ((1 - di) * a + di * b))

/-- `linear_interp_F_synch`, core/emissivity.c:289-303. -/
noncomputable def interpF (n : ℕ) (k : ℝ) : Option ℝ :=
  if k < kMin ∨ k > kMax then some 0 else interp n kMin kMax (fTable n) k

/-- `K2_eval_synch`, core/emissivity.c:305-312, with `linear_interp_K2_synch`, lines 276-287. -/
noncomputable def k2Eval (n : ℕ) (bes : ℝ → ℝ) (thetae : ℝ) : Option ℝ :=
  if thetae < thetaeMin then some 0
  else if thetae > tMax then some (2 * thetae * thetae)
  else interp n thetaeMin tMax (k2Table n bes) thetae

/-- The argument `K` of `F_eval_synch`, core/emissivity.c:400, 405. -/
noncomputable def kOf (c : Phys) (thetae b nu : ℝ) : ℝ := 9 * Real.pi * c.me * c.cl / c.ee * nu / (b * thetae * thetae)

/-- `F_eval_synch`, core/emissivity.c:401-418; the exponent of line 411 is taken to be one third. A field or temperature of zero is left out. -/
noncomputable def fEval (n : ℕ) (c : Phys) (thetae b nu : ℝ) : Option ℝ :=
  let k := kOf c thetae b nu
  if k > kMax then some 0
  else if k < kMin then
    let x := k ^ (1 / 3 : ℝ)
    some (x * (3767503800178 / 10 ^ 11 + 2240274341836 / 10 ^ 12 * x))
  else interpF n k

/-- `Jnu_synch`, core/emissivity.c:346-369. As in `jnuSynch`, the replacement by zero of values above `1e100` is left out. -/
noncomputable def jnuTotal (n : ℕ) (bes : ℝ → ℝ) (c : Phys) (Ne thetae b nu : ℝ) : Option ℝ :=
  if thetae < thetaeMin then some 0
  else
    let nuC := c.ee * b / (2 * Real.pi * c.me * c.cl)
    (fEval n c thetae b nu).bind fun F => (k2Eval n bes thetae).bind fun k2 =>
      some (Real.sqrt 2 * Real.pi * c.ee * c.ee * Ne * (2 / 9 * nuC) * thetae * thetae / (3 * c.cl * k2) * F)

/-- `jnu_synch` with the tabulated Bessel function, core/emissivity.c:315-343. -/
noncomputable def jnuAt (n : ℕ) (bes : ℝ → ℝ) (c : Phys) (Ne thetae b nu theta : ℝ) : Option ℝ :=
  if thetae < thetaeMin then some 0 else (k2Eval n bes thetae).map fun k2 => jnuSynch c k2 Ne thetae b nu theta

end Nubhlight.SynchTable
