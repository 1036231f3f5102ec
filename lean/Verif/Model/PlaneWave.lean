import Verif.Model.FluxCT
import Mathlib.Analysis.SpecialFunctions.Trigonometric.Basic

set_option autoImplicit false

/-!
# The plane wave problems

prob/mhdmodes1d/problem.c, prob/mhdmodes2d/problem.c and prob/mhdmodes3d/problem.c: a uniform magnetised gas at rest with a small wave of one of four kinds.
The box is the default one, `[0, 1]` in every direction (script/config.py:459-464), with flat metric, so `ggeom[i][j][CENT].g` is one. Real numbers replace
floating point; the numbers given for the modes in decimal are kept as they are written. Zone indices are relative to the first active zone.
-/

namespace Nubhlight.PlaneWave
open FluxCT

/-- What a mode changes: `omega` (its imaginary part; the real part is zero), `drho`, `du`, `du1..3`, `dB1..3`, prob/mhdmodes1d/problem.c:63. -/
structure Mode where
  omega : ℝ
  rho : ℝ
  u : ℝ
  u1 : ℝ
  u2 : ℝ
  u3 : ℝ
  b1 : ℝ
  b2 : ℝ
  b3 : ℝ

/-- The modes of one dimension before the permutation, prob/mhdmodes1d/problem.c:66-106. -/
noncomputable def mode1 (nmode : ℕ) : Mode :=
  if nmode = 0 then ⟨2 * Real.pi / 5, 1, 0, 0, 0, 0, 0, 0, 0⟩
  else if nmode = 1 then ⟨2.74220688339, 0.580429492464, 0.773905989952, -0.253320198552, 0, 0, 0, 0, 0⟩
  else if nmode = 2 then ⟨3.44144232573, 0, 0, 0, 0.480384461415, 0, 0, 0.877058019307, 0⟩
  else ⟨3.44144232573, 0, 0, 0, 0, 0.480384461415, 0, 0, 0.877058019307⟩

/-- The permutation for `idim = 2`, prob/mhdmodes1d/problem.c:109-118. -/
def permute2 (m : Mode) : Mode := { m with u3 := m.u2, u2 := m.u1, u1 := m.u3, b3 := m.b2, b2 := m.b1, b1 := m.b3 }

/-- The permutation for `idim = 3`, prob/mhdmodes1d/problem.c:119-128. -/
def permute3 (m : Mode) : Mode := { m with u1 := m.u2, u2 := m.u3, u3 := m.u1, b1 := m.b2, b2 := m.b3, b3 := m.b1 }

/-- The modes of two dimensions, prob/mhdmodes2d/problem.c:37-77: any number but 0, 1, 2 is the fast mode. -/
noncomputable def mode2 (nmode : ℕ) : Mode :=
  if nmode = 0 then ⟨2 * Real.pi / 5, 1, 0, 0, 0, 0, 0, 0, 0⟩
  else if nmode = 1 then ⟨2.41024185339, 0.558104461559, 0.744139282078, -0.277124827421, 0.0630348927707, 0, -0.164323721928, 0.164323721928, 0⟩
  else if nmode = 2 then ⟨3.44144232573, 0, 0, 0, 0, 0.480384461415, 0, 0, 0.877058019307⟩
  else ⟨5.53726217331, 0.476395427447, 0.635193903263, -0.102965815319, -0.316873207561, 0, 0.359559114174, -0.359559114174, 0⟩

/-- The modes of three dimensions, prob/mhdmodes3d/problem.c:38-78. -/
noncomputable def mode3 (nmode : ℕ) : Mode :=
  if nmode = 0 then ⟨2 * Real.pi / 5, 1, 0, 0, 0, 0, 0, 0, 0⟩
  else if nmode = 1 then ⟨2.35896379113, 0.556500332363, 0.742000443151, -0.282334999306, 0.0367010491491, 0.0367010491491, -0.195509141461,
    0.0977545707307, 0.0977545707307⟩
  else if nmode = 2 then ⟨3.44144232573, 0, 0, 0, -0.339683110243, 0.339683110243, 0, 0.620173672946, -0.620173672946⟩
  else ⟨6.92915162882, 0.481846076323, 0.642461435098, -0.0832240462505, -0.224080007379, -0.224080007379, 0.406380545676, -0.203190272838,
    -0.203190272838⟩

/-- What a problem starts from: the field at rest `B10, B20, B30`, the wave vector, the mode. -/
structure Setup where
  bg1 : ℝ
  bg2 : ℝ
  bg3 : ℝ
  k1 : ℝ
  k2 : ℝ
  k3 : ℝ
  mode : Mode

/-- `init_prob` of the three problems up to the zone loop, prob/mhdmodes1d/problem.c:20-128, prob/mhdmodes2d/problem.c:18-77, prob/mhdmodes3d/problem.c:18-78:
the problem of one dimension exits (`none`) if the axis or the mode is not one it knows. -/
noncomputable def setup (dim nmode idim : ℕ) : Option Setup :=
  if dim = 1 then
    if idim ≠ 1 ∧ idim ≠ 2 ∧ idim ≠ 3 then none
    else if nmode ≠ 0 ∧ nmode ≠ 1 ∧ nmode ≠ 2 ∧ nmode ≠ 3 then none
    else some <|
      if idim = 1 then ⟨1, 0, 0, 2 * Real.pi, 0, 0, mode1 nmode⟩
      else if idim = 2 then ⟨0, 1, 0, 0, 2 * Real.pi, 0, permute2 (mode1 nmode)⟩
      else ⟨0, 0, 1, 0, 0, 2 * Real.pi, permute3 (mode1 nmode)⟩
  else if dim = 2 then some ⟨1, 0, 0, 2 * Real.pi, 2 * Real.pi, 0, mode2 nmode⟩
  else some ⟨1, 0, 0, 2 * Real.pi, 2 * Real.pi, 2 * Real.pi, mode3 nmode⟩

/-- `amp`, prob/mhdmodes1d/problem.c:61. -/
noncomputable def amp : ℝ := 1e-4

/-- `coord(i, j, k, CENT, X)` in one direction of the box of unit length with `n` zones, core/coord.c:395, 59. -/
noncomputable def centre (n : ℕ) (i : ℤ) : ℝ := 0 + ((i : ℝ) + 1 / 2) * ((1 - 0) / n)

/-- Distances between zones, core/coord.c:395-397. -/
noncomputable def spacing (n1 n2 n3 : ℕ) : Spacing ℝ := ⟨(1 - 0) / n1, (1 - 0) / n2, (1 - 0) / n3⟩

/-- `mode` of the zone loop, prob/mhdmodes1d/problem.c:135, prob/mhdmodes2d/problem.c:94, prob/mhdmodes3d/problem.c:95. -/
noncomputable def wave (s : Setup) (x1 x2 x3 : ℝ) : ℝ := amp * Real.cos (s.k1 * x1 + s.k2 * x2 + s.k3 * x3)

/-- The field of an active zone, prob/mhdmodes3d/problem.c:102-104. -/
noncomputable def zone (s : Setup) (n1 n2 n3 : ℕ) : BArr ℝ where
  b1 i j k := s.bg1 + s.mode.b1 * wave s (centre n1 i) (centre n2 j) (centre n3 k)
  b2 i j k := s.bg2 + s.mode.b2 * wave s (centre n1 i) (centre n2 j) (centre n3 k)
  b3 i j k := s.bg3 + s.mode.b3 * wave s (centre n1 i) (centre n2 j) (centre n3 k)

/-- The field after `bound_prim` with periodic boundaries, core/bounds.c: a zone outside the grid holds what the active zone it stands for holds. -/
noncomputable def initial (s : Setup) (n1 n2 n3 : ℕ) : BArr ℝ where
  b1 i j k := (zone s n1 n2 n3).b1 (i % n1) (j % n2) (k % n3)
  b2 i j k := (zone s n1 n2 n3).b2 (i % n1) (j % n2) (k % n3)
  b3 i j k := (zone s n1 n2 n3).b3 (i % n1) (j % n2) (k % n3)

/-- What `flux_ct_divb` gives at a corner of the initial field, core/diag.c:382-414, with `ggeom[i][j][CENT].g = 1`. -/
noncomputable def divergence (s : Setup) (n1 n2 n3 : ℕ) (i j k : ℤ) : ℝ :=
  fluxCtDivb (spacing n1 n2 n3) (fun _ _ => 1) (initial s n1 n2 n3) i j k

end Nubhlight.PlaneWave
