import Mathlib.Analysis.SpecialFunctions.Trigonometric.Basic

set_option autoImplicit false

/-! Where the values of a vertical slice are drawn: script/analysis/plot.py:73-84
(`flatten_xz`) and 126-174 (`plot_xz`), in three dimensions.  Real arithmetic.  Not
modelled: the options that mirror and scale the axes, and the drawing itself. -/

namespace Nubhlight.SlicePlot

/-- Numbers of zones. -/
structure Grid where
  n1 : ℕ
  n2 : ℕ
  n3 : ℕ

/-- `flatten_xz` without `flip` (plot.py:73-80). -/
def flatten {α : Type} (g : Grid) (a : ℕ → ℕ → ℕ → α) (i j : ℕ) : α :=
  if i < g.n1 then a (g.n1 - 1 - i) j (g.n3 / 2) else a (i - g.n1) j 0

/-- `flatten_xz` with `flip` (plot.py:81-83). -/
def flattenFlip (g : Grid) (a : ℕ → ℕ → ℕ → ℝ) (i j : ℕ) : ℝ :=
  if j = 0 ∨ j = g.n2 - 1 then 0 else flatten g a i j

/-- `rcyl` (plot.py:136-141). -/
noncomputable def rcyl (g : Grid) (x y : ℕ → ℕ → ℕ → ℝ) (i j : ℕ) : ℝ :=
  let u := flattenFlip g x i j
  let v := flattenFlip g y i j
  open Classical in
  if u < 0 then -1 * Real.sqrt (u ^ 2 + v ^ 2) else Real.sqrt (u ^ 2 + v ^ 2)

/-- `z` as drawn (plot.py:138). -/
def height (g : Grid) (z : ℕ → ℕ → ℕ → ℝ) (i j : ℕ) : ℝ := flatten g z i j

/-- The values drawn (plot.py:139). -/
def shown {α : Type} (g : Grid) (var : ℕ → ℕ → ℕ → α) (i j : ℕ) : α := flatten g var i j

end Nubhlight.SlicePlot
