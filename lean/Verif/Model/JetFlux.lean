import Verif.Model.Fluid

set_option autoImplicit false

/-! # Model of the jet column of the log, core/diag.c:166-175 -/

namespace Nubhlight.JetFlux

open Nubhlight.Fluid

/-- `P_EM`: the primitive variables without density and internal energy, core/diag.c:166-169. -/
def emPrim (P : Prim) : Prim := fun i => if i = 0 then 0 else if i = 1 then 0 else P i

/-- Contribution of a zone to `jet_EM_flux_proc`, per area, core/diag.c:170-175: where the magnetisation exceeds one, `-U[U1]` of the magnetic
flux in direction 1. -/
noncomputable def jetZone (small : ℝ) (pres : ℝ → ℝ → ℝ) (P : Prim) (G : Geom) : ℝ :=
  let q := getState (emPrim P) G
  if dot q.bcon q.bcov / P 0 > 1 then -primToFlux small pres (emPrim P) q 1 true G 2 else 0

end Nubhlight.JetFlux
