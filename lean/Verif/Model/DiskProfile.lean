import Verif.Model.DumpAverage
import Mathlib.Analysis.SpecialFunctions.Trigonometric.Basic

set_option autoImplicit false

/-!
# Heights of the disk, averages over radius and over time, mass accreted

script/analysis: `zoh.py` (scale heights and averages over the disk), `average_sadws.py` (averages over time), `get_mass_accreted.py`. Real arithmetic. Not modelled:
the interpolation between angles (zoh.py:58-65) beyond the order of the points it is given, and the tables of pressure and sound speed (average_sadws.py:47-71).
-/

namespace Nubhlight.DiskProfile

open DumpAverage

/-! ## Heights -/

/-- `th0` at one radius, script/analysis/zoh.py:16-17. -/
noncomputable def middle {ι κ : Type*} (dx2 dx3 : ℝ) (gd : ι → ℝ) (rho : ι → κ → ℝ) (th : ι → ℝ) (js : List ι) (ks : List κ) : Option ℝ :=
  (weighted dx2 dx3 gd rho (fun j _ => th j - Real.pi / 2) js ks).map (· + Real.pi / 2)

/-- `thdsqr`, script/analysis/zoh.py:18. -/
noncomputable def variance {ι κ : Type*} (dx2 dx3 : ℝ) (gd : ι → ℝ) (rho : ι → κ → ℝ) (th : ι → ℝ) (js : List ι) (ks : List κ) (th0 : ℝ) : Option ℝ :=
  weighted dx2 dx3 gd rho (fun j _ => (th j - th0) ^ 2) js ks

/-- What `get_scale_heights` returns at one radius: `th0`, `thd`, `H`. -/
structure Heights where
  th0 : ℝ
  thd : ℝ
  H : ℝ

/-- `get_scale_heights` at the radius `r`, script/analysis/zoh.py:14-22. -/
noncomputable def heights {ι κ : Type*} (dx2 dx3 : ℝ) (gd : ι → ℝ) (rho : ι → κ → ℝ) (th : ι → ℝ) (js : List ι) (ks : List κ) (r : ℝ) : Option Heights := do
  let th0 ← middle dx2 dx3 gd rho th js ks
  let v ← variance dx2 dx3 gd rho th js ks th0
  some ⟨th0, Real.sqrt v, r * Real.tan (Real.sqrt v)⟩

/-- `zoH` of a zone at the angle `t`, script/analysis/zoh.py:21; division by zero (the gas is at one angle) is its own outcome. -/
noncomputable def zoH (h : Heights) (t : ℝ) : Option ℝ :=
  if Real.tan h.thd = 0 then none else some (Real.tan (t - h.th0) / Real.tan h.thd)

/-! ## Averages over radius -/

/-- `np.where(r >= a)[0][0]`, script/analysis/zoh.py:48-49; stops if there is none. -/
noncomputable def firstFrom (a : ℝ) : List ℝ → Option ℕ
  | [] => none
  | x :: l => if a ≤ x then some 0 else (firstFrom a l).map (· + 1)

/-- `set_r_range` and the slice `irmin:irmax`, script/analysis/zoh.py:47-50, 71, 74. -/
noncomputable def radii (rmin rmax : ℝ) (r : List ℝ) : Option (List ℝ) := do
  let a ← firstFrom rmin r
  let b ← firstFrom rmax r
  some ((r.take b).drop a)

/-- `_basic_simps` of scipy for points `(x, y)` with unequal spacing: the parabola through three points, then through the third and the two after, and so on. -/
noncomputable def basicX : List (ℝ × ℝ) → ℝ
  | a :: b :: c :: l =>
    let h0 := b.1 - a.1
    let h1 := c.1 - b.1
    (h0 + h1) / 6 * (a.2 * (2 - h1 / h0) + b.2 * ((h0 + h1) ^ 2 / (h0 * h1)) + c.2 * (2 - h0 / h1)) + basicX (c :: l)
  | _ => 0

/-- Trapezoid of the first two points. -/
noncomputable def firstTrapX : List (ℝ × ℝ) → ℝ
  | a :: b :: _ => (b.1 - a.1) / 2 * (a.2 + b.2)
  | _ => 0

/-- Trapezoid of the last two points. -/
noncomputable def lastTrapX : List (ℝ × ℝ) → ℝ
  | [a, b] => (b.1 - a.1) / 2 * (a.2 + b.2)
  | _ :: l => lastTrapX l
  | [] => 0

/-- `scipy.integrate.simps(y, x=x)` with its default `even='avg'`, script/analysis/zoh.py:74-80; as `DumpAverage.simps`, for unequal spacing. -/
noncomputable def simpsX (l : List (ℝ × ℝ)) : ℝ :=
  if l.length % 2 = 0 then (basicX l.dropLast + lastTrapX l + (basicX l.tail + firstTrapX l)) / 2 else basicX l

/-- Points of a quantity over the coordinates `x`. -/
def over {ι : Type*} (x y : ι → ℝ) (l : List ι) : List (ℝ × ℝ) := l.map fun i => (x i, y i)

/-- `_integrate_radially` at one height, for more than one zone in azimuth, script/analysis/zoh.py:67-84: `rs` and `ks` are the zones in radius (those of the range) and
azimuth, `q` is the quantity brought to the height. Division by zero (fewer than two radii in the range) is its own outcome. -/
noncomputable def average {ι κ : Type*} (r : ι → ℝ) (phi : κ → ℝ) (q : ι → κ → ℝ) (rs : List ι) (ks : List κ) : Option ℝ :=
  let n := simpsX (over phi (fun _ => simpsX (over r (fun _ => 1) rs)) ks)
  if n = 0 then none else some (simpsX (over phi (fun k => simpsX (over r (fun i => q i k) rs)) ks) / n)

/-! ## Averages over time -/

/-- Where a slice of Python ends for the bound `b` (counted from the end if negative), or where it starts. -/
def bound (n : ℕ) (b : ℤ) : ℕ := if b < 0 then ((n : ℤ) + b).toNat else min b.toNat n

/-- `l[a:b]` of Python. -/
def slice {α : Type*} (a b : ℤ) (l : List α) : List α := (l.take (bound l.length b)).drop (bound l.length a)

/-- The files averaged, script/analysis/average_sadws.py:89-97. -/
def chosen {α : Type*} (imin imax : ℤ) (l : List α) : List α :=
  let a := if imin < 0 then 0 else imin
  let b := if imax < 0 then (l.length : ℤ) + imax else imax
  slice a (b + 1) l

/-- One number of the table of averages, script/analysis/average_sadws.py:103-109; stops without files (`qs[0]`). -/
noncomputable def mean {α : Type*} (q : α → ℝ) (l : List α) : Option ℝ :=
  if l = [] then none else some ((l.map q).sum / l.length)

/-! ## Mass accreted -/

/-- `integrate.trapz(y, x=x)`. -/
noncomputable def trapz : List (ℝ × ℝ) → ℝ
  | a :: b :: l => (b.1 - a.1) * (a.2 + b.2) / 2 + trapz (b :: l)
  | _ => 0

/-- `get_m_accreted`, script/analysis/get_mass_accreted.py:19-20: rows are time and rate as read from the log (`LogRead.load`). -/
noncomputable def accreted (mUnit mSolar : ℝ) (rows : List (ℝ × ℝ)) : ℝ := |trapz rows * mUnit / mSolar|

end Nubhlight.DiskProfile
