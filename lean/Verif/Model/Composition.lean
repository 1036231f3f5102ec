import Verif.Model.EosTable

set_option autoImplicit false

/-!
# Model of the composition looked up for the opacities, core/eos_stellar_collapse.c:837-853
-/

namespace Nubhlight.Composition
open Nubhlight.EosTable

variable {K : Type*} [Field K] [LinearOrder K] [IsStrictOrderedRing K] [FloorRing K]

/-- The tables of mass fractions of alpha particles, heavy nuclei, neutrons, protons, and of the mean mass and charge numbers of the
nuclei. -/
structure Tables (K : Type*) where
  Xa : List K
  Xh : List K
  Xn : List K
  Xp : List K
  Abar : List K
  Zbar : List K

/-- The composition in `struct of_microphysics` (`Xi`, `Abar`, `Zbar`), core/decs.h:216-221. -/
structure Comp (K : Type*) where
  a : K
  h : K
  n : K
  p : K
  A : K
  Z : K
  deriving DecidableEq

/-- `EOS_SC_mass_fractions` and `EOS_SC_avg_ions`, core/eos_stellar_collapse.c:837-853, as called in core/rad_utils.c:351-352. -/
def composition (X : Axes K) (t : Tables K) (lrho lT ye : K) : Option (Comp K) :=
  (interp3 X t.Xa lrho lT ye).bind fun a =>
  (interp3 X t.Xh lrho lT ye).bind fun h =>
  (interp3 X t.Xn lrho lT ye).bind fun n =>
  (interp3 X t.Xp lrho lT ye).bind fun p =>
  (interp3 X t.Abar lrho lT ye).bind fun A =>
  (interp3 X t.Zbar lrho lT ye).bind fun Z => some ⟨a, h, n, p, A, Z⟩

end Nubhlight.Composition
