import Mathlib.Analysis.SpecialFunctions.Pow.Real

/-!
# Extending a trace beyond the end of the run

script/analysis/tracers_to_PRISM.py:17-126 and 376-399: traces of tracers are extended from the end
of the run to some thousand seconds by an homologous expansion, for a network of nuclear reactions.

Arithmetic is over the reals, powers are those of the reals (`Real.rpow`). Traces are those of
`Trace` in hdf5_to_dict.py, whose times are sorted and unique (952-962); the selection of the part of
the trace used (`cleanup_trace`) is modelled in `Model/PrismConvert.lean`.
-/

set_option autoImplicit false

namespace Nubhlight.PrismExtrap

/-- `SMALL`, tracers_to_PRISM.py:15. -/
noncomputable def SMALL : ℝ := 1 / 10 ^ 20

/-! ## The homologous expansion, tracers_to_PRISM.py:17-52 -/

/-- What the constructor of `HomologousExpansion` stores, 22-25. -/
structure Expansion where
  /-- `rho0` -/
  rho0 : ℝ
  /-- `C_adiabat` -/
  cAd : ℝ
  /-- `R0` -/
  r0 : ℝ

/-- `power`, tracers_to_PRISM.py:19. -/
noncomputable def power : ℝ := -3

/-- `gamma`, tracers_to_PRISM.py:20. -/
noncomputable def gamma : ℝ := 5 / 3

/-- `__init__`, `_get_rho0_homologous` and `_get_adiabatic_const`, tracers_to_PRISM.py:22-25, 44-52.
The division by `tlast` is that of the reals; the theorems are about positive times. -/
noncomputable def mkExpansion (tlast rholast kbTlast Rlast : ℝ) : Expansion where
  rho0 := rholast * tlast ^ (-power)
  cAd := kbTlast * rholast ^ (1 - gamma)
  r0 := Rlast / tlast

/-- `rho`, tracers_to_PRISM.py:27-30. -/
noncomputable def Expansion.rho (e : Expansion) (t : ℝ) : ℝ := e.rho0 * (t + SMALL) ^ power

/-- `R`, tracers_to_PRISM.py:32-33. -/
noncomputable def Expansion.R (e : Expansion) (t : ℝ) : ℝ := e.r0 * t

/-- `kbT` and `kbT_of_rho`, tracers_to_PRISM.py:35-42. -/
noncomputable def Expansion.kbT (e : Expansion) (t : ℝ) : ℝ := e.cAd * e.rho t ^ (gamma - 1)

/-! ## Interpolation in a trace -/

/-- The straight line through two points. -/
noncomputable def line (a b : ℝ × ℝ) (t : ℝ) : ℝ := a.2 + (b.2 - a.2) / (b.1 - a.1) * (t - a.1)

/-- `interpolate.interp1d(…, kind='linear', fill_value='extrapolate')`, tracers_to_PRISM.py:73-87:
the line of the first interval whose end is not before `t`, that of the last interval after the end
and that of the first before the start. With less than two points scipy refuses; such traces are
excluded by `mkExtrap` below. -/
noncomputable def interp : List (ℝ × ℝ) → ℝ → ℝ
  | a :: b :: [], t => line a b t
  | a :: b :: c :: rest, t => if t ≤ b.1 then line a b t else interp (b :: c :: rest) t
  | _, _ => 0

/-- One record of a trace in the units of the code: `trace['time']`, `trace['rho']`, `trace['R']`;
the temperature `trace['T']` is in MeV. -/
structure Rec where
  time : ℝ
  T : ℝ
  rho : ℝ
  R : ℝ

/-- The units used, tracers_to_PRISM.py:64-67: `T_unit`, `cgs['MEV']`, `RHO_unit`, `L_unit`. -/
structure Units where
  tU : ℝ
  mev : ℝ
  rhoU : ℝ
  lU : ℝ

/-- `_t`, `_kbT`, tracers_to_PRISM.py:64-65: the points of the temperature. -/
def kbTPts (u : Units) (tr : List Rec) : List (ℝ × ℝ) := tr.map fun r => (u.tU * r.time, r.T * u.mev)

/-- `_t`, `_rho`, tracers_to_PRISM.py:64, 66. -/
def rhoPts (u : Units) (tr : List Rec) : List (ℝ × ℝ) := tr.map fun r => (u.tU * r.time, u.rhoU * r.rho)

/-- `_t`, `_R`, tracers_to_PRISM.py:64, 67. -/
def RPts (u : Units) (tr : List Rec) : List (ℝ × ℝ) := tr.map fun r => (u.tU * r.time, r.R * u.lU)

/-- What the constructor of `TraceExtrapolator` stores, tracers_to_PRISM.py:58-101, without the
electron fraction (a constant, 68-71, 103-107). -/
structure Extrap where
  kbTp : List (ℝ × ℝ)
  rhop : List (ℝ × ℝ)
  Rp : List (ℝ × ℝ)
  /-- `t_first` -/
  tFirst : ℝ
  /-- `t_last`, `tt_stop` -/
  tLast : ℝ
  /-- `tt_start` -/
  ttStart : ℝ
  /-- `HE` -/
  he : Expansion

/-- `t_transition`, tracers_to_PRISM.py:56. -/
noncomputable def tTransition : ℝ := 1 / 10

/-- The constructor, tracers_to_PRISM.py:58-101; `none`: less than two records (scipy raises). -/
noncomputable def mkExtrap (u : Units) (tr : List Rec) : Option Extrap :=
  match tr with
  | first :: second :: rest =>
    let last := (second :: rest).getLast (by simp)
    let tFirst := u.tU * first.time
    let tLast := u.tU * last.time
    some
      { kbTp := kbTPts u tr, rhop := rhoPts u tr, Rp := RPts u tr
        tFirst := tFirst, tLast := tLast
        ttStart := tFirst + (1 - tTransition) * (tLast - tFirst)
        he := mkExpansion tLast (u.rhoU * last.rho) (last.T * u.mev) (last.R * u.lU) }
  | _ => none

/-- `_get_smoother`, tracers_to_PRISM.py:122-126. -/
noncomputable def Extrap.smoother (e : Extrap) (t : ℝ) : ℝ :=
  max 0 (min 1 ((t - e.ttStart) / (e.tLast - e.ttStart)))

/-- `_smoothed_q`, tracers_to_PRISM.py:118-120. -/
noncomputable def Extrap.smoothed (e : Extrap) (t qInt qHE : ℝ) : ℝ :=
  (1 - e.smoother t) * qInt + e.smoother t * qHE

/-- `rho`, tracers_to_PRISM.py:109-110. -/
noncomputable def Extrap.rho (e : Extrap) (t : ℝ) : ℝ := e.smoothed t (interp e.rhop t) (e.he.rho t)

/-- `kbT`, tracers_to_PRISM.py:112-113. -/
noncomputable def Extrap.kbT (e : Extrap) (t : ℝ) : ℝ := e.smoothed t (interp e.kbTp t) (e.he.kbT t)

/-- `R`, tracers_to_PRISM.py:115-116. -/
noncomputable def Extrap.R (e : Extrap) (t : ℝ) : ℝ := e.smoothed t (interp e.Rp t) (e.he.R t)

/-! ## The times written, tracers_to_PRISM.py:380-387 -/

/-- `np.linspace(a, b, 1000)[i]`. -/
noncomputable def linspace (a b : ℝ) (i : ℕ) : ℝ := a + i * ((b - a) / 999)

/-- `10.**tlog`, tracers_to_PRISM.py:382-386: a thousand times from eleven tenths of the last to
`tfinal`. The logarithm to the base of ten is that of the natural ones divided by `log 10`. -/
noncomputable def tExtrap (tLast tfinal : ℝ) : List ℝ :=
  (List.range 1000).map fun i =>
    (10 : ℝ) ^ linspace (Real.log (11 / 10 * tLast) / Real.log 10) (Real.log tfinal / Real.log 10) i

/-- `tnew`, tracers_to_PRISM.py:387. -/
noncomputable def tNew (u : Units) (tr : List Rec) (tLast tfinal : ℝ) : List ℝ :=
  (tr.map fun r => r.time * u.tU) ++ tExtrap tLast tfinal

end Nubhlight.PrismExtrap
