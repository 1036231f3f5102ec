import Mathlib.Analysis.SpecialFunctions.Exp
import Mathlib.Analysis.SpecialFunctions.Pow.Real

/-!
# The temperature expected at the end of a step

core/estimate_thetae.c (compiled with `ESTIMATE_THETAE`). As it stands the file is refused by the compiler, because line 73
passes the address of an `m` that is not declared; what is modelled is the file with `&micro` there. Exact real arithmetic.
Packets are taken from all threads in one list: only sums over them are used.
-/

set_option autoImplicit false

namespace Nubhlight.EstimateThetae

/-- A packet as it is stored for its zone, core/estimate_thetae.c:199-209: weight, `HPL * nu / (ME * CL * CL)` (81), and the depths of
absorption (84-87) and of scattering (95-98) as functions of the temperature. -/
structure Packet where
  w : ℝ
  udotk : ℝ
  tauA : ℝ → ℝ
  tauS : ℝ → ℝ

/-- What the residual of a zone depends on, core/estimate_thetae.c:49-74, 120: the energy of the electrons as a function of the
temperature (59-66), the temperature at the start, the emissivity as a function of the temperature (68-73), the time component of the
velocity, the step in seconds (`dt * T_unit`), the factor `kphys_to_num / vol * U_unit / T_unit` (74, 89, 102, 108-109), packets. -/
structure Zone where
  u : ℝ → ℝ
  old : ℝ
  J : ℝ → ℝ
  ucon0 : ℝ
  dtau : ℝ
  conv : ℝ
  packets : List Packet

/-- core/estimate_thetae.c:100-101. -/
noncomputable def amp (th : ℝ) : ℝ := 1 + 4 * th - 2 * th ^ ((3 : ℝ) / 2) + 16 * th ^ 2

/-- `udotG_abs`, core/estimate_thetae.c:77, 88-89, 108. -/
noncomputable def absG (z : Zone) (th : ℝ) : ℝ :=
  (z.packets.map fun p => z.conv * (p.w * (1 - Real.exp (-p.tauA th))) * p.udotk).sum

/-- `udotG_scatt`, core/estimate_thetae.c:78, 99-102, 109. -/
noncomputable def scattG (z : Zone) (th : ℝ) : ℝ :=
  (z.packets.map fun p => z.conv * (1 - amp th) * (p.w * (1 - Real.exp (-p.tauS th))) * p.udotk).sum

/-- `dEdt`, core/estimate_thetae.c:120-124. -/
noncomputable def resid (z : Zone) (th : ℝ) : ℝ :=
  z.ucon0 * (z.u th - z.u z.old) / z.dtau + z.J th + absG z th + scattG z th

/-- The bracket and the root of the solver after a pass, core/estimate_thetae.c:273-275. -/
structure Bracket where
  lo : ℝ
  hi : ℝ
  root : ℝ

/-- `gsl_root_test_interval(lo, hi, 0, 0.001)`, core/estimate_thetae.c:276, for an interval of positive numbers. -/
def small (b : Bracket) : Prop := |b.hi - b.lo| < 1 / 1000 * min |b.lo| |b.hi|

open Classical in
/-- The passes, core/estimate_thetae.c:269-283; `b k` is what the solver has after pass `k`, and the first argument bounds the number of
passes looked at: `none` is that the loop has not ended by then. `iter` is compared with `max_iter` (277) but nothing ever adds to it, so
that only the test ends the loop; the status of `gsl_root_fsolver_iterate` (272) is overwritten in line 276. -/
noncomputable def loop (b : ℕ → Bracket) : ℕ → ℕ → Option ℝ
  | 0, _ => none
  | f + 1, k => if small (b k) then some (b k).root else loop b f (k + 1)

open Classical in
/-- One zone, core/estimate_thetae.c:255-283: `none` is that the search has not ended after `f` passes. -/
noncomputable def estimate (z : Zone) (b : ℕ → Bracket) (f : ℕ) : Option ℝ :=
  if 0 < resid z (1 / 2 * z.old) * resid z (2 * z.old) then some z.old else loop b f 1

/-- The value read for zone `i` of a row with `n` zones between `ng` ghost zones on either side (one direction of the array), core/estimate_thetae.c:22,
40, 234: only the zones of the loop are written, the others stay zero. -/
noncomputable def stored (ng n : ℕ) (est : ℕ → ℝ) (i : ℕ) : ℝ := if ng ≤ i ∧ i < ng + n then est i else 0

/-- The zones that get the estimate as the temperature their interactions are computed with, core/rad_utils.c:280-299 (`ZLOOPALL`): the
ghost zones too. -/
def reads (ng n : ℕ) (i : ℕ) : Prop := i < ng + n + ng

end Nubhlight.EstimateThetae
