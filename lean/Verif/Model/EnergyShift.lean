import Verif.Model.EosTable
import Verif.Model.TableFallback

set_option autoImplicit false

/-!
The three switches that set the zero of the internal energy of a tabulated equation of state, core/eos_stellar_collapse.h:29-121: what they do to the shifts
(core/eos_stellar_collapse.c:328-337, 395-422) and to the enthalpy and sound speed of a point of the table (424-447, 495-513). The header of the code fixes them to
`USE_ENERGY_SHIFT = 0, OFFSET_U = 0, OFFSET_H_CS = 1`; here they are arguments.

Simplifications. Real numbers for doubles; a table is the list of its points, each with its density, log energy and pressure; the limits put on the sound speed afterwards are left out.
-/

namespace Nubhlight.EnergyShift
open Nubhlight.EosTable (exp10 log10 u2e e2u le2e e2le)
open Nubhlight.TableFallback (cs2Raw)

/-- `USE_ENERGY_SHIFT`, `OFFSET_U`, `OFFSET_H_CS`, core/eos_stellar_collapse.h:115-117. -/
structure Settings where
  useShift : Bool
  offsetU : Bool
  offsetHcs : Bool
deriving DecidableEq

/-- `e_shift` after the preprocessor's block, core/eos_stellar_collapse.c:329-337; `E` is the shift of the file. -/
def eShift (s : Settings) (E : ℝ) : ℝ := if s.useShift then E else 0

/-- `h_shift_cs`, core/eos_stellar_collapse.c:329-337. -/
def hShiftCs (s : Settings) (E : ℝ) : ℝ := if !s.useShift && (s.offsetHcs && !s.offsetU) then E else 0

/-- A point of the table: density, log energy, pressure and the two derivatives, in cgs. -/
structure Point where
  rho : ℝ
  le : ℝ
  P : ℝ
  dpdrhoe : ℝ
  dpderho : ℝ

/-- `tab_u_min`: the least of `rho * e` over the table, core/eos_stellar_collapse.c:397-412 (`INFINITY` for an empty table). -/
noncomputable def uMin (s : Settings) (E : ℝ) : List Point → WithTop ℝ
  | [] => ⊤
  | p :: l => min ((p.rho * le2e (eShift s E) p.le : ℝ) : WithTop ℝ) (uMin s E l)

/-- `u_shift` from `tab_u_min`, core/eos_stellar_collapse.c:413-418. -/
noncomputable def shiftU (small : ℝ) : WithTop ℝ → ℝ
  | ⊤ => 0
  | (m : ℝ) => if m ≤ 0 then -(1 + 1 / 10 ^ 10) * m + small else 0

/-- `u_shift`, core/eos_stellar_collapse.c:395-422. -/
noncomputable def uShift (s : Settings) (small E : ℝ) (tab : List Point) : ℝ := if s.offsetU then shiftU small (uMin s E tab) else 0

/-- The internal energy of a point, core/eos_stellar_collapse.c:436-439, 816-817. -/
noncomputable def energy (s : Settings) (small E : ℝ) (tab : List Point) (p : Point) : ℝ := e2u (uShift s small E tab) p.rho (le2e (eShift s E) p.le)

/-- The enthalpy per mass, less the square of the speed of light, core/eos_stellar_collapse.c:442. -/
noncomputable def hm1 (s : Settings) (E : ℝ) (p : Point) : ℝ := le2e (eShift s E) p.le + p.P / p.rho

/-- The sound speed before its limits, core/eos_stellar_collapse.c:503-509. -/
noncomputable def cs2 (s : Settings) (CL E : ℝ) (p : Point) : ℝ := cs2Raw CL (hShiftCs s E) p.rho p.P (hm1 s E p) p.dpdrhoe p.dpderho

/-- The three choices the header recommends, core/eos_stellar_collapse.h:84-111. -/
def recommended : List Settings := [⟨false, false, true⟩, ⟨true, true, false⟩, ⟨true, false, false⟩]

end Nubhlight.EnergyShift
