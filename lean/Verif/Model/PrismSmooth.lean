import Mathlib.Analysis.SpecialFunctions.Trigonometric.Basic
import Mathlib.Analysis.SpecialFunctions.Pow.Real

/-!
# Smoothing of signals

script/analysis/tracers_to_PRISM.py:174-233: the smoothing of the temperatures, densities and rates
of change of the entropy of a trace. Arithmetic is over the reals.
-/

set_option autoImplicit false

namespace Nubhlight.PrismSmooth

/-- The names of windows accepted, tracers_to_PRISM.py:201. -/
inductive Window
  | flat
  | hanning
  | hamming
  | bartlett
  | blackman

/-- The argument of numpy's windows: `np.arange(1-M, M, 2)[k]`. -/
def winN (M k : ℕ) : ℝ := 1 - M + 2 * k

/-- The weights of the window of `M` entries, tracers_to_PRISM.py:209-212, as numpy computes them (for
`M > 1`). -/
noncomputable def weight (w : Window) (M k : ℕ) : ℝ :=
  match w with
  | .flat => 1
  | .hanning => 1 / 2 + 1 / 2 * Real.cos (Real.pi * winN M k / (M - 1))
  | .hamming => 54 / 100 + 46 / 100 * Real.cos (Real.pi * winN M k / (M - 1))
  | .bartlett => if winN M k ≤ 0 then 1 + winN M k / (M - 1) else 1 - winN M k / (M - 1)
  | .blackman => 42 / 100 + 1 / 2 * Real.cos (Real.pi * winN M k / (M - 1))
      + 8 / 100 * Real.cos (2 * Real.pi * winN M k / (M - 1))

/-- `s`, tracers_to_PRISM.py:208: the signal with its reflections at both ends. `x[M-1:0:-1]` starts
from the last entry if there are fewer than `M`, `x[-2:-M-1:-1]` ends with the first. -/
def padded (x : List ℝ) (M : ℕ) : List ℝ := (x.take M).tail.reverse ++ x ++ x.dropLast.reverse.take (M - 1)

/-- `w.sum()`. -/
noncomputable def weightSum (w : Window) (M : ℕ) : ℝ := ∑ k ∈ Finset.range M, weight w M k

/-- `np.convolve(w/w.sum(), s, mode='valid')`, tracers_to_PRISM.py:214, for `s` not shorter than the
window. -/
noncomputable def convolve (w : Window) (M : ℕ) (s : List ℝ) : List ℝ :=
  (List.range (s.length + 1 - M)).map fun i =>
    ∑ k ∈ Finset.range M, weight w M k / weightSum w M * s.getD (i + (M - 1 - k)) 0

/-- tracers_to_PRISM.py:215-221: the middle part of `y`, of the length `n` of the signal. In Python
`-d//2` is `(-d)//2`; with an odd excess of one the end of the slice would be zero and nothing
would be left. -/
def middle (n : ℕ) (y : List ℝ) : List ℝ :=
  if n < y.length then
    let d := y.length - n
    if d % 2 = 0 then (y.take (y.length - d / 2)).drop (d / 2)
    else if d / 2 = 0 then []
    else (y.take (y.length - d / 2)).drop (d / 2)
  else y

/-- `signal_smooth` with a window whose name is accepted, tracers_to_PRISM.py:174-221; `none`: an
exception (197-198). -/
noncomputable def signalSmooth (w : Window) (windowLen : ℕ) (x : List ℝ) : Option (List ℝ) :=
  if x.length < windowLen then none
  else if windowLen < 3 then some x
  else
    let M := if windowLen % 2 = 0 then windowLen + 1 else windowLen
    some (middle x.length (convolve w M (padded x M)))

/-- `np.log10`, of positive numbers. -/
noncomputable def log10 (x : ℝ) : ℝ := Real.log x / Real.log 10

/-- `log_smooth`, tracers_to_PRISM.py:223-233. -/
noncomputable def logSmooth (w : Window) (windowLen : ℕ) (x : List ℝ) : Option (List ℝ) :=
  (signalSmooth w windowLen (x.map log10)).map fun l => middle x.length (l.map fun y => (10 : ℝ) ^ y)

end Nubhlight.PrismSmooth
