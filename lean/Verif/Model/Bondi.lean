import Verif.Model.TorusInit
import Verif.Model.RadialGrid

set_option autoImplicit false

/-!
# Model of the spherical inflow problem

prob/bondi/problem.c:45-88 (temperature of the flow at a radius), 139-186 (state of a zone; the velocity is `TorusInit.bondiVelocity`), 281-318. Real numbers replace floating point; what
is not a number, or read outside an array, is `none`. `pow` of a temperature that is not positive is not followed: it is not a number unless `n` is an integer.
-/

namespace Nubhlight.Bondi
open Nubhlight.Fluid

/-- `n`, prob/bondi/problem.c:287. -/
noncomputable def idx (gam : ℝ) : ℝ := 1 / (gam - 1)

/-- `rs`, prob/bondi/problem.c:286. -/
def rs : ℝ := 8

/-- `uc` with `mdot = 1`, prob/bondi/problem.c:285, 290. -/
noncomputable def uc : ℝ := Real.sqrt (1 / (2 * rs))

/-- `Vc`, prob/bondi/problem.c:291. -/
noncomputable def vc : ℝ := -Real.sqrt (uc ^ 2 / (1 - 3 * uc ^ 2))

/-- `Tc`, prob/bondi/problem.c:292. -/
noncomputable def tc (n : ℝ) : ℝ := -n * vc ^ 2 / ((n + 1) * (n * vc ^ 2 - 1))

/-- `C1`, prob/bondi/problem.c:293. -/
noncomputable def c1 (n : ℝ) : ℝ := uc * rs ^ 2 * tc n ^ n

/-- `C2`, prob/bondi/problem.c:294-295. -/
noncomputable def c2 (n : ℝ) : ℝ := (1 + (1 + n) * tc n) ^ 2 * (1 - 2 * 1 / rs + c1 n ^ 2 / (rs ^ 4 * tc n ^ (2 * n)))

/-- `get_Tfunc`, prob/bondi/problem.c:48-51, for positive temperatures and radii. -/
noncomputable def tfunc (n C1 C2 T r : ℝ) : ℝ := (1 + (1 + n) * T) ^ 2 * (1 - 2 / r + (C1 / r / r / T ^ n) ^ 2) - C2

/-- Where `get_Tfunc` is followed. -/
noncomputable def tfunc? (n C1 C2 T r : ℝ) : Option ℝ := if T ≤ 0 ∨ r ≤ 0 then none else some (tfunc n C1 C2 T r)

/-- `Tmin` and `Tmax`, prob/bondi/problem.c:57-58. -/
noncomputable def tmin (n C2 : ℝ) : ℝ := 6 / 10 * (Real.sqrt C2 - 1) / (n + 1)

/-- prob/bondi/problem.c:58. -/
noncomputable def tmax (n C1 r : ℝ) : ℝ := (C1 * Real.sqrt (2 / r / r / r)) ^ (1 / n)

/-- `T0`, `f0`, `T1`, `f1`, `Th`, `fh` of `get_T`. -/
structure Search where
  T0 : ℝ
  f0 : ℝ
  T1 : ℝ
  f1 : ℝ
  Th : ℝ
  fh : ℝ

/-- `Th` and `fh` from the rest, prob/bondi/problem.c:71-72, 83-84. `none`: not a number. -/
noncomputable def secant (f : ℝ → Option ℝ) (T0 f0 T1 f1 : ℝ) : Option Search :=
  if f1 - f0 = 0 then none
  else
    let Th := (f1 * T0 - f0 * T1) / (f1 - f0)
    (f Th).map fun fh => ⟨T0, f0, T1, f1, Th, fh⟩

/-- The condition of the loop, prob/bondi/problem.c:74, with the tolerances of 55-56 and 73. -/
def Goes (epsT : ℝ) (s : Search) : Prop := |s.Th - s.T0| > epsT ∧ |s.Th - s.T1| > epsT ∧ |s.fh| > 1 / 10 ^ 14

/-- One iteration, prob/bondi/problem.c:75-84. -/
noncomputable def next (f : ℝ → Option ℝ) (s : Search) : Option Search :=
  if s.fh * s.f0 < 0 then secant f s.Th s.fh s.T1 s.f1 else secant f s.T0 s.f0 s.Th s.fh

/-- The loop from a state on comes to an end, with this temperature. -/
inductive Ends (f : ℝ → Option ℝ) (epsT : ℝ) : Search → ℝ → Prop
  | stop (s : Search) (h : ¬Goes epsT s) : Ends f epsT s s.Th
  | more (s s' : Search) (v : ℝ) (h : Goes epsT s) (hn : next f s = some s') (he : Ends f epsT s' v) : Ends f epsT s v

/-- `epsT`, prob/bondi/problem.c:55, 73. -/
noncomputable def epsT (n C1 C2 r : ℝ) : ℝ := 1 / 10 ^ 12 * (tmin n C2 + tmax n C1 r)

/-- The ends at which `get_T` begins, prob/bondi/problem.c:61-64, with what `get_Tfunc` is there. -/
noncomputable def bracket (n C1 C2 r : ℝ) : Option (ℝ × ℝ × ℝ × ℝ) :=
  let T0 := 6 / 10 * tmin n C2
  let T1 := tmax n C1 r
  (tfunc? n C1 C2 T0 r).bind fun f0 => (tfunc? n C1 C2 T1 r).map fun f1 => (T0, f0, T1, f1)

/-- `get_T` leaves with `exit(-1)`, prob/bondi/problem.c:66-69. -/
def Exits (n C1 C2 r : ℝ) : Prop := ∃ b, bracket n C1 C2 r = some b ∧ 0 < b.2.1 * b.2.2.2

/-- `get_T` returns this, prob/bondi/problem.c:53-88. -/
def GetT (n C1 C2 r v : ℝ) : Prop :=
  ∃ b, bracket n C1 C2 r = some b ∧ ¬0 < b.2.1 * b.2.2.2 ∧
    ∃ s, secant (tfunc? n C1 C2 · r) b.1 b.2.1 b.2.2.1 b.2.2.2 = some s ∧ Ends (tfunc? n C1 C2 · r) (epsT n C1 C2 r) s v

/-- The loop of prob/bondi/problem.c:145-149, for storage of `m` zones: the first zone from `i` on whose centre is not inside the horizon. `none`: beyond the array `T_bondi` (151). -/
noncomputable def firstOut (r : ℕ → ℝ) (Reh : ℝ) : ℕ → ℕ → Option ℕ
  | 0, _ => none
  | fuel + 1, i => if r i < Reh then firstOut r Reh fuel (i + 1) else some i

/-- The search in storage of `m` zones. -/
noncomputable def zoneOf (r : ℕ → ℝ) (Reh : ℝ) (m i : ℕ) : Option ℕ := firstOut r Reh (m - i) i

/-- A row of zones: centres, geometry and temperatures. -/
structure Row where
  q : Coord.Par
  eps : ℝ
  a : ℝ
  X : ℕ → V4
  G : ℕ → Geom
  T : ℕ → ℝ

/-- `get_prim_bondi`, prob/bondi/problem.c:139-186, in a row stored in `m` zones. `none`: outside the array, or a division by zero in `bl_gcov_func` (core/metric.c:140, 146) on the
horizon. -/
noncomputable def primBondi (R : Row) (gam C1 : ℝ) (m i : ℕ) (P : Prim) : Option Prim :=
  (zoneOf (fun i => Coord.rOf (R.X i 1)) (RadialGrid.reh R.a) m i).bind fun i =>
  let n := idx gam
  let r := Coord.rOf (R.X i 1)
  let T := R.T i
  let ur := -C1 / (T ^ n * r ^ 2)
  let rho := T ^ n
  let u := rho * T / (gam - 1)
  if 1 - 2 / r + R.a * R.a / (r * r) = 0 then none
  else (TorusInit.bondiVelocity R.q R.eps R.a (R.X i) (R.G i) ur P).map fun P' => ![rho, u, P' 2, P' 3, P' 4, 0, 0, 0]

end Nubhlight.Bondi
