import Verif.Model.EosTable
import Verif.Model.RootFind

set_option autoImplicit false

/-!
# Temperatures from the tabulated equation of state

core/eos_stellar_collapse.c:584-835, 958-967: a temperature is sought at which a tabulated function (energy, enthalpy, pressure) has a given value. Real numbers
replace floating point; macro settings as in `Model/EosTable.lean`, `SC_MONOTONE_SAFE` on (core/eos_stellar_collapse.h:27). A lookup outside a table is `none`,
`exit(1)` is `Res.fail`. The debugging checks (`SC_DEBUG`) are off.
-/

namespace Nubhlight.EosInvert
open EosTable RootFind

/-- A dependent variable: the table, its bounds over temperature (`tab_x_min_2d`, `tab_x_max_2d`) and over everything (`tab_x_min`, `tab_x_max` and their
logarithms), the shift inside the logarithm. -/
structure Dep where
  tab : List ℝ
  min2 : List ℝ
  max2 : List ℝ
  vmin : ℝ
  vmax : ℝ
  lo : ℝ
  hi : ℝ
  shift : ℝ

/-- The tables and units in use. -/
structure Tables where
  A : Axes ℝ
  le : Dep
  lw : Dep
  lP : Dep
  Uunit : ℝ
  RHOunit : ℝ

/-- `lT_f`, core/eos_stellar_collapse.c:1199-1205, as a function on the reals where every lookup succeeds. -/
noncomputable def lTf (A : Axes ℝ) (tab : List ℝ) (lrho ye lT : ℝ) : ℝ := (interp3 A tab lrho lT ye).getD 0

open Classical in
/-- `find_lT`, core/eos_stellar_collapse.c:958-967; `TABLE_TOL` and `TABLE_FTOL` (core/eos_stellar_collapse.h:22-23) are `100 * tol`. `n` is fuel. -/
noncomputable def findLT (A : Axes ℝ) (tab : List ℝ) (lrho guess ye val : ℝ) (n : ℕ) : Option (Res ℝ) :=
  if ∀ lT, (interp3 A tab lrho lT ye).isSome then
    findRoot (lTf A tab lrho ye) val guess A.t.lo (A.t.hi - 2 * tol) (100 * tol) (100 * tol) n
  else none

/-- `catch_var_2d`, core/eos_stellar_collapse.c:1352-1374. -/
noncomputable def catch2d (A : Axes ℝ) (D : Dep) (lrho ye v : ℝ) : Option ℝ :=
  (interp2 A D.min2 lrho ye).bind fun lo =>
    if v ≤ lo then some (lo + tol)
    else (interp2 A D.max2 lrho ye).map fun hi => if hi ≤ v then hi - tol else v

/-- `catch_var_2d_monotone`, core/eos_stellar_collapse.c:1376-1385. -/
noncomputable def catchMono (A : Axes ℝ) (tab : List ℝ) (lrho ye v : ℝ) : Option ℝ :=
  (interp3 A tab lrho A.t.lo ye).bind fun lo =>
    if v ≤ lo then some (lo + tol)
    else (interp3 A tab lrho A.t.hi ye).map fun hi => if hi ≤ v then hi - tol else v

/-- `catch_rho`, core/eos_stellar_collapse.c:1436-1445. -/
noncomputable def catchRho (A : Axes ℝ) (rho : ℝ) : ℝ := clampLog 0 (exp10 A.r.lo) (exp10 A.r.hi) A.r.lo A.r.hi rho

/-- `catch_ye`, core/eos_stellar_collapse.c:1500-1508. -/
noncomputable def catchYe (A : Axes ℝ) (ye : ℝ) : ℝ := clamp A.y.lo A.y.hi ye

/-- `catch_lT`, core/eos_stellar_collapse.c:1523-1533. -/
noncomputable def catchLT (A : Axes ℝ) (lT : ℝ) : ℝ := clamp A.t.lo A.t.hi lT

/-- `catch_e`, `catch_w`, `catch_press`, core/eos_stellar_collapse.c:1457-1485. -/
noncomputable def catchVal (D : Dep) (v : ℝ) : ℝ := clampLog D.shift D.vmin D.vmax D.lo D.hi v

/-- The common part of the three inversions: force a value back onto the table (core/eos_stellar_collapse.c:605-608, 721-724, 790), then find the temperature. -/
noncomputable def invert (A : Axes ℝ) (D : Dep) (safe : Bool) (lrho ye v guess : ℝ) (n : ℕ) : Option (Res ℝ) :=
  (catch2d A D lrho ye v).bind fun v1 =>
    (if safe then catchMono A D.tab lrho ye v1 else some v1).bind fun v2 =>
      findLT A D.tab lrho (catchLT A guess) ye v2 n

/-- `Res` under a function that may fail. -/
noncomputable def andThen {α β : Type*} (r : Res α) (f : α → Option β) : Option (Res β) :=
  match r with
  | .fail => some .fail
  | .ok x => (f x).map .ok

/-- `EOS_SC_fill`, core/eos_stellar_collapse.c:584-647: `(EOS_LRHO, EOS_LT, EOS_YE)`. -/
noncomputable def fill (T : Tables) (rho u ye lT : ℝ) (n : ℕ) : Option (Res (ℝ × ℝ × ℝ)) :=
  let uC := u * T.Uunit
  let rhoC := rho * T.RHOunit
  let lrho := catchRho T.A rhoC
  let ye := catchYe T.A ye
  (u2e 0 rhoC uC).bind fun e =>
    (invert T.A T.le true lrho ye (catchVal T.le e) lT n).bind fun r => andThen r fun t => some (lrho, t, ye)

/-- `EOS_SC_get_u_of_T`, core/eos_stellar_collapse.c:688-701; the density is in cgs units. `none` for a logarithm of a number that is not positive. -/
noncomputable def uOfT (T : Tables) (rho temp ye : ℝ) : Option ℝ :=
  let t1 := if temp < exp10 T.A.t.lo then exp10 T.A.t.lo else temp
  let t2 := if t1 > exp10 T.A.t.hi then exp10 T.A.t.hi else t1
  let lrho := catchRho T.A rho
  let lT := catchLT T.A (log10 t2)
  (interp3 T.A T.le.tab lrho lT (catchYe T.A ye)).map fun le => e2u 0 rho (le2e 0 le) / T.Uunit

/-- `EOS_SC_pressure_rho0_w`, core/eos_stellar_collapse.c:703-776: pressure and new guess. -/
noncomputable def pressureW (T : Tables) (rho w ye lT : ℝ) (n : ℕ) : Option (Res (ℝ × ℝ)) :=
  let wC := (w - rho) * T.Uunit
  let lrho := catchRho T.A (rho * T.RHOunit)
  let ye := catchYe T.A ye
  (invert T.A T.lw true lrho ye (catchVal T.lw wC) lT n).bind fun r =>
    andThen r fun t => (interp3 T.A T.lP.tab lrho t ye).map fun lp => (exp10 lp / T.Uunit, t)

/-- `EOS_SC_u_press`, core/eos_stellar_collapse.c:778-835: energy and new guess. -/
noncomputable def uPress (T : Tables) (press rho ye lT : ℝ) (n : ℕ) : Option (Res (ℝ × ℝ)) :=
  let rhoC := rho * T.RHOunit
  let lrho := catchRho T.A rhoC
  let ye := catchYe T.A ye
  (invert T.A T.lP false lrho ye (catchVal T.lP (press * T.Uunit)) lT n).bind fun r =>
    andThen r fun t => (interp3 T.A T.le.tab lrho t ye).map fun le => (e2u 0 rhoC (le2e 0 le) / T.Uunit, t)

/-- `EOS_SC_pressure_rho0_u`, core/eos_stellar_collapse.c:649-652, and `EOS_SC_temperature`, core/eos_stellar_collapse.c:683-686, from the stored triple. -/
noncomputable def pressureU (T : Tables) (s : ℝ × ℝ × ℝ) : Option ℝ :=
  (interp3 T.A T.lP.tab s.1 s.2.1 s.2.2).map fun lp => exp10 lp / T.Uunit

end Nubhlight.EosInvert
