import Verif.Model.Conserve
import Verif.Model.Rounding

set_option autoImplicit false

/-!
The update of one conserved variable in floating-point arithmetic: core/step.c:212-219, with a rounding `rnd` after every operation, in the order of the C expression (left to right, no contraction of a product and a sum
into one operation).

Zone indices are relative to the first active zone. The conserved variables at the start (`primtoflux`), the fluxes and the sources are whatever numbers the program has computed.
-/

namespace Nubhlight.FloatConserve

/-- The bracket of core/step.c:216-218, rounded. -/
def rateF (rnd : ℚ → ℚ) (d1 d2 d3 f1p f1 f2p f2 f3p f3 src : ℚ) : ℚ :=
  rnd (rnd (rnd (rnd (-rnd (f1p - f1) / d1) - rnd (rnd (f2p - f2) / d2)) - rnd (rnd (f3p - f3) / d3)) + src)

/-- `U[ip] += Dt * (...)`, core/step.c:215-218, rounded. -/
def updF (rnd : ℚ → ℚ) (Dt d1 d2 d3 : ℚ) (U F1 F2 F3 dU : ℤ → ℤ → ℤ → ℚ) (i j k : ℤ) : ℚ :=
  rnd (U i j k + rnd (Dt * rateF rnd d1 d2 d3 (F1 (i+1) j k) (F1 i j k) (F2 i (j+1) k) (F2 i j k) (F3 i j (k+1)) (F3 i j k) (dU i j k)))

/-- What a step brings: its length, the fluxes of the half-step state and the sources. -/
structure Step where
  dt : ℚ
  F1 : ℤ → ℤ → ℤ → ℚ
  F2 : ℤ → ℤ → ℤ → ℚ
  F3 : ℤ → ℤ → ℤ → ℚ
  dU : ℤ → ℤ → ℤ → ℚ

/-- The update of a whole step (the corrector, core/step.c:91). -/
def stepF (rnd : ℚ → ℚ) (d1 d2 d3 : ℚ) (U : ℤ → ℤ → ℤ → ℚ) (s : Step) : ℤ → ℤ → ℤ → ℚ := updF rnd s.dt d1 d2 d3 U s.F1 s.F2 s.F3 s.dU

end Nubhlight.FloatConserve
