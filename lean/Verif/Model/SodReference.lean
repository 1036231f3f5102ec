import Mathlib.Analysis.SpecialFunctions.Pow.Real
import Mathlib.Analysis.SpecialFunctions.Sqrt

set_option autoImplicit false

/-! # The shock tube and the reference of its test

test/sod.py:64-67, 100-152; prob/sod/problem.c:19-82. Arithmetic is exact. The root search of test/sod.py:114 is not modelled: `P3` is any number at which
`func` is zero. -/

namespace Nubhlight.SodReference

/-- Initial state, test/sod.py:103-104: density and pressure left (1) and right (5) of the middle, both at rest, and `gam` (line 28). -/
structure Tube where
  gam : ℝ
  rho1 : ℝ
  P1 : ℝ
  rho5 : ℝ
  P5 : ℝ

/-- Density, pressure, velocity. -/
structure Gas where
  rho : ℝ
  P : ℝ
  u : ℝ

namespace Tube

variable (s : Tube)

/-- test/sod.py:105-108. -/
noncomputable def cs1 : ℝ := Real.sqrt (s.gam * s.P1 / s.rho1)
noncomputable def cs5 : ℝ := Real.sqrt (s.gam * s.P5 / s.rho5)
noncomputable def Gam : ℝ := (s.gam - 1) / (s.gam + 1)
noncomputable def beta : ℝ := (s.gam - 1) / (2 * s.gam)

/-- `u4` and `u2` inside `func`, test/sod.py:111-112. -/
noncomputable def funcU4 (P3 : ℝ) : ℝ := (P3 - s.P5) * Real.sqrt ((1 - s.Gam) / (s.rho5 * (P3 + s.Gam * s.P5)))
noncomputable def funcU2 (P3 : ℝ) : ℝ :=
  (s.P1 ^ s.beta - P3 ^ s.beta) * Real.sqrt ((1 - s.Gam ^ (2 : ℕ)) * s.P1 ^ (1 / s.gam) / (s.Gam ^ (2 : ℕ) * s.rho1))

/-- `func`, test/sod.py:109-113. -/
noncomputable def func (P3 : ℝ) : ℝ := s.funcU2 P3 - s.funcU4 P3

/-- test/sod.py:115-121; `P4` is `P3`, `u3` is `u4`. -/
noncomputable def rho3 (P3 : ℝ) : ℝ := s.rho1 * (P3 / s.P1) ^ (1 / s.gam)
noncomputable def rho4 (P3 : ℝ) : ℝ := s.rho5 * (P3 + s.Gam * s.P5) / (s.P5 + s.Gam * P3)
noncomputable def u4 (P3 : ℝ) : ℝ :=
  s.cs5 * (P3 / s.P5 - 1) / (s.gam * Real.sqrt (1 + (s.gam + 1) / (2 * s.gam) * (P3 / s.P5 - 1)))
noncomputable def ushock (P3 : ℝ) : ℝ := s.cs5 * Real.sqrt (1 + (s.gam + 1) / (2 * s.gam) * (P3 / s.P5 - 1))
noncomputable def cs3 (P3 : ℝ) : ℝ := Real.sqrt (s.gam * P3 / s.rho3 P3)

/-- Positions of shock, contact, foot and head of the fan, test/sod.py:122-125. The script writes 0.5 for `x0` in the last two. -/
noncomputable def xsh (P3 x0 t : ℝ) : ℝ := x0 + s.ushock P3 * t
noncomputable def xcd (P3 x0 t : ℝ) : ℝ := x0 + s.u4 P3 * t
noncomputable def xft (P3 x0 t : ℝ) : ℝ := x0 + (s.u4 P3 - s.cs3 P3) * t
noncomputable def xhd (x0 t : ℝ) : ℝ := x0 - s.cs1 * t

/-- Velocity and the other variables in the fan, test/sod.py:137-140. -/
noncomputable def fanU (x0 x t : ℝ) : ℝ := 2 / (s.gam + 1) * (s.cs1 + (x - x0) / t)
noncomputable def fanFac (x0 x t : ℝ) : ℝ := 1 - 1 / 2 * (s.gam - 1) * s.fanU x0 x t / s.cs1
noncomputable def fan (x0 x t : ℝ) : Gas :=
  { rho := s.rho1 * s.fanFac x0 x t ^ (2 / (s.gam - 1)),
    P := s.P1 * s.fanFac x0 x t ^ (2 * s.gam / (s.gam - 1)),
    u := s.fanU x0 x t }

/-- The four states of constant density: left, between fan and contact, between contact and shock, right. -/
noncomputable def state1 : Gas := ⟨s.rho1, s.P1, 0⟩
noncomputable def state3 (P3 : ℝ) : Gas := ⟨s.rho3 P3, P3, s.u4 P3⟩
noncomputable def state4 (P3 : ℝ) : Gas := ⟨s.rho4 P3, P3, s.u4 P3⟩
noncomputable def state5 : Gas := ⟨s.rho5, s.P5, 0⟩

/-- The reference at position `x` and time `t`, test/sod.py:131-152. -/
noncomputable def reference (P3 x0 x t : ℝ) : Gas :=
  if x < s.xhd x0 t then s.state1
  else if x < s.xft P3 x0 t then s.fan x0 x t
  else if x < s.xcd P3 x0 t then s.state3 P3
  else if x < s.xsh P3 x0 t then s.state4 P3
  else s.state5

/-- The tube the program starts from: energies are multiplied by `tscale` squared (prob/sod/problem.c:72-81), and with them the pressures. -/
noncomputable def scaled (a : ℝ) : Tube := { s with P1 := a ^ 2 * s.P1, P5 := a ^ 2 * s.P5 }

end Tube

/-- What the script makes of a state of the program: pressure over `tscale` squared and velocity over `tscale`, test/sod.py:65-67. -/
noncomputable def readBack (a : ℝ) (g : Gas) : Gas := ⟨g.rho, g.P / (a * a), g.u / a⟩

/-- Initial density and pressure of a zone, prob/sod/problem.c:34-39 (`pscale` is 1 outside the variant without reference). -/
noncomputable def initial (X1 : ℝ) : ℝ × ℝ :=
  (if X1 < 1 / 2 ∨ X1 > 3 / 2 then 1 else 1 / 8, if X1 < 1 / 2 ∨ X1 > 3 / 2 then 1 else 1 / 10)

/-- The tube of the script, test/sod.py:28, 103-104. -/
noncomputable def sod : Tube := ⟨14 / 10, 1, 1, 1 / 8, 1 / 10⟩

end Nubhlight.SodReference
