import Mathlib.Analysis.SpecialFunctions.Log.Basic
import Mathlib.Algebra.BigOperators.Group.List.Basic

set_option autoImplicit false

/-! What the tests of waves measure: test/mhdmodes1d.py:97-115, 162-182, test/mhdmodes2d.py:127-140
(the same as test/mhdmodes2d_mpi.py:121-134) and test/mhdmodes3d.py:149-166.

Arithmetic is over the reals.  `np.polyfit` of degree one is taken to give the slope of the line of
least squares.  The runs themselves are not modelled: `code` are their deviations from the state at
rest and `sol` those of the wave. -/

namespace Nubhlight.WaveTests

/-- Three components. -/
structure V3 where
  x : ℝ
  y : ℝ
  z : ℝ

/-- The assignments for the second direction (mhdmodes1d.py:98-106), for either vector. -/
def testPermute2 (v : V3) : V3 :=
  let tmp := v.z
  let v := { v with z := v.y }
  let v := { v with y := v.x }
  { v with x := tmp }

/-- Those for the third (mhdmodes1d.py:107-115). -/
def testPermute3 (v : V3) : V3 :=
  let tmp := v.x
  let v := { v with x := v.y }
  let v := { v with y := v.z }
  { v with z := tmp }

/-- `dvar` of the test for a direction. -/
def testVector (idim : ℕ) (v : V3) : V3 :=
  if idim = 2 then testPermute2 v else if idim = 3 then testPermute3 v else v

/-- The vector of the problem (prob/mhdmodes1d/problem.c:109-128). -/
def probVector (idim : ℕ) (v : V3) : V3 :=
  let v := if idim = 2 then (⟨v.z, v.x, v.y⟩ : V3) else v
  if idim = 3 then ⟨v.y, v.z, v.x⟩ else v

/-- The error in one dimension (mhdmodes1d.py:163-166): the mean over zones. -/
noncomputable def err1 (code sol : List ℝ) : ℝ :=
  ((List.zipWith (fun a b => |a - b|) code sol).sum) / code.length

/-- The error in two dimensions (mhdmodes2d.py:132-135): the entry of `L1`, zero at first, is set
in each turn of the loops to the mean of one number. -/
noncomputable def err2 (n : ℕ) (code sol : ℕ → ℕ → ℝ) : ℝ :=
  (List.range n).foldl (fun e i => (List.range n).foldl (fun _ j => |code i j - sol i j|) e) 0

/-- The error in three dimensions (mhdmodes3d.py:154-161). -/
noncomputable def err3 (n : ℕ) (code sol : ℕ → ℕ → ℕ → ℝ) : ℝ :=
  (List.range n).foldl (fun e i => (List.range n).foldl (fun e j =>
    (List.range n).foldl (fun _ k => |code i j k - sol i j k|) e) e) 0

/-- The mean of some numbers. -/
noncomputable def mean (l : List ℝ) : ℝ := l.sum / l.length

/-- `np.polyfit(x, y, 1)[0]` for pairs of `x` and `y`; `none`: all `x` are the same, and the line
is not determined. -/
noncomputable def slope (l : List (ℝ × ℝ)) : Option ℝ :=
  let xm := mean (l.map Prod.fst)
  let ym := mean (l.map Prod.snd)
  let d := (l.map fun p => (p.1 - xm) ^ 2).sum
  if d = 0 then none else some ((l.map fun p => (p.1 - xm) * (p.2 - ym)).sum / d)

open Classical in
/-- `powerfits` of a variable (mhdmodes1d.py:180-182), for pairs of resolution and error.  An error
of zero has no logarithm: `none`. -/
noncomputable def powerfit (l : List (ℝ × ℝ)) : Option ℝ :=
  if ∀ p ∈ l, 0 < p.1 ∧ 0 < p.2 then slope (l.map fun p => (Real.log p.1, Real.log p.2)) else none

end Nubhlight.WaveTests
