import Mathlib.Algebra.Field.Basic
import Mathlib.Algebra.BigOperators.Group.Finset.Basic
import Mathlib.Algebra.BigOperators.Intervals
import Mathlib.Algebra.BigOperators.Ring.Finset

set_option autoImplicit false

/-!
# Model of the finite-volume update

Zone indices are relative to the first active zone. One conserved variable at a time: the C loop over `ip`
(`PLOOP`) treats the variables independently once fluxes and sources are known.
Reals are replaced by an arbitrary field.
-/

namespace Nubhlight.Conserve

open Finset

variable {K : Type*} [Field K]

/-- Update of one conserved variable of zone `(i,j,k)`, core/step.c:212-219. -/
def updZone (Dt d1 d2 d3 : K) (U : ℤ → ℤ → ℤ → K) (F1 F2 F3 : ℤ → ℤ → ℤ → K) (dU : ℤ → ℤ → ℤ → K)
    (i j k : ℤ) : K :=
  U i j k + Dt * (-(F1 (i+1) j k - F1 i j k) / d1 - (F2 i (j+1) k - F2 i j k) / d2
    - (F3 i j (k+1) - F3 i j k) / d3 + dU i j k)

/-- Grid total over the active zones `0..n-1` in each direction (`ZLOOP`, core/decs.h:667-670). -/
def total (n1 n2 n3 : ℕ) (U : ℤ → ℤ → ℤ → K) : K :=
  ∑ i ∈ range n1, ∑ j ∈ range n2, ∑ k ∈ range n3, U i j k

/-- Face fluxes of `fluxcalc`, core/step.c:283-342, for a face between zones `i-1` and `i`: `P_r[i-1]` is
reconstructed from zones `i-3..i+1`, `P_l[i]` from `i-2..i+2` (core/reconstruction.c:673-681), and
`lr_to_flux` combines them, so the flux is a function `num` of the six zones `i-3..i+2`. `num` is
arbitrary here. `S` is the zone state. Dependence on face geometry is dropped (uniform geometry). -/
def faceFlux {S : Type*} (num : (Fin 6 → S) → K) (P : ℤ → S) (i : ℤ) : K :=
  num (fun m => P (i - 3 + (m : ℤ)))

end Nubhlight.Conserve
