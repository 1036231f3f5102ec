import Verif.Model.Fluid
import Verif.Model.Coord

set_option autoImplicit false

/-! # Vectors and stresses that the analysis computes from a dump

script/analysis/hdf5_to_dict.py: `get_state` (716-760), the part of `load_dump` that fills in vectors (410-418, 431-436, 453-470), `grid_matrix_multiply` (762-781) and `get_stresses` (631-686), for
one zone. Real numbers replace floating point; that `P` is stored in single precision is left out. `none` stands for NaN. -/

namespace Nubhlight.DumpVectors

open Nubhlight.Fluid Nubhlight.Coord

/-- `qsq`, script/analysis/hdf5_to_dict.py:739-742. -/
noncomputable def qsq (gcov : M4) (P : Prim) : ℝ :=
  gcov 1 1 * P 2 ^ 2 + gcov 2 2 * P 3 ^ 2 + gcov 3 3 * P 4 ^ 2 + 2 * (gcov 1 2 * P 2 * P 3 + gcov 1 3 * P 2 * P 4 + gcov 2 3 * P 3 * P 4)

/-- Lines 749-750 and 757-758. -/
def lowerPy (gcov : M4) (v : V4) : V4 := fun mu => ∑ nu, v nu * gcov mu nu

/-- `get_state`, script/analysis/hdf5_to_dict.py:716-760. `none`: the root of a negative number (743). -/
noncomputable def getState (gcov gcon : M4) (alpha : ℝ) (P : Prim) : Option State :=
  let q := qsq gcov P
  if 1 + q < 0 then none
  else
    let gamma := Real.sqrt (1 + q)
    let ucon : V4 := ![gamma / alpha, P 2 - gamma * alpha * gcon 0 1, P 3 - gamma * alpha * gcon 0 2, P 4 - gamma * alpha * gcon 0 3]
    let ucov := lowerPy gcov ucon
    let b0 := P 5 * ucov 1 + P 6 * ucov 2 + P 7 * ucov 3
    let bcon : V4 := ![b0, (P 5 + b0 * ucon 1) / ucon 0, (P 6 + b0 * ucon 2) / ucon 0, (P 7 + b0 * ucon 3) / ucon 0]
    some ⟨ucon, ucov, bcon, lowerPy gcov bcon⟩

/-- `dump['bsq']`, line 417. -/
def bsq (q : State) : ℝ := ∑ mu, q.bcon mu * q.bcov mu

/-- `SMALL` of the script, line 30. -/
noncomputable def SMALLpy : ℝ := 1 / 10 ^ 40

/-- `dump['beta']`, line 418. -/
noncomputable def beta (press : ℝ) (q : State) : ℝ := 2 * (press / (bsq q + SMALLpy))

/-- `np.dot(M, v)`, script/analysis/hdf5_to_dict.py:775,780: what `grid_matrix_multiply` does for one zone when `transpose` is not given, as in all its calls. -/
def npDot (M : M4) (v : V4) : V4 := fun mu => ∑ nu, M mu nu * v nu

/-- `Jcon` of `jac_bl_to_cart`, core/coord.c:224-232. -/
noncomputable def conBl2Cart (r th ph : ℝ) : M4 := fun i j => match i, j with
  | 0, 0 => 1
  | 1, 1 => Real.sin th * Real.cos ph
  | 1, 2 => r * Real.cos th * Real.cos ph
  | 1, 3 => -r * Real.sin th * Real.sin ph
  | 2, 1 => Real.sin th * Real.sin ph
  | 2, 2 => r * Real.cos th * Real.sin ph
  | 2, 3 => r * Real.sin th * Real.cos ph
  | 3, 1 => Real.cos th
  | 3, 2 => -r * Real.sin th
  | _, _ => 0

/-- `Jcov` of `jac_bl_to_cart`, core/coord.c:234-242; `eps` is `SMALL` of the program. -/
noncomputable def covBl2Cart (eps r th ph : ℝ) : M4 := fun i j => match i, j with
  | 0, 0 => 1
  | 1, 1 => Real.cos ph * Real.sin th
  | 1, 2 => Real.sin ph * Real.sin th
  | 1, 3 => Real.cos th
  | 2, 1 => Real.cos ph * Real.cos th / (r + eps)
  | 2, 2 => Real.cos th * Real.sin ph / (r + eps)
  | 2, 3 => -Real.sin th / (r + eps)
  | 3, 1 => -Real.sin ph / (r * Real.sin th + eps)
  | 3, 2 => Real.cos ph / (r * Real.sin th + eps)
  | _, _ => 0

/-- `Jcon` of `jac_harm_to_cart` for the metric MKS, core/coord.c:254-263. `q`, `X` as in `jac_harm_to_bl`; `r`, `th` are those of `bl_coord` and `ph = X[3]`. -/
noncomputable def conCart (q : Par) (X : V4) (r th : ℝ) : M4 := fun a c => ∑ b, conBl2Cart r th (X 3) a b * jconBl q X b c

/-- `Jcov` of `jac_harm_to_cart`, as it is stored: the first index is that of the code coordinates (line 260). -/
noncomputable def covCart (q : Par) (eps : ℝ) (X : V4) (r th : ℝ) : M4 := fun c a => ∑ b, jcovBl q eps X c b * covBl2Cart eps r th (X 3) b a

/-- The eight vectors that `load_dump` derives with these matrices, lines 453-470. -/
structure Vectors where
  uconBl : V4
  ucovBl : V4
  bconBl : V4
  bcovBl : V4
  uconCart : V4
  ucovCart : V4
  bconCart : V4
  bcovCart : V4

/-- Lines 453-470 for the metric MKS: matrices `con`, `cov` to Boyer-Lindquist and `conC`, `covC` to Cartesian coordinates, read from the grid file. -/
def vectors (con cov conC covC : M4) (q : State) : Vectors where
  uconBl := npDot con q.ucon
  ucovBl := npDot cov q.ucov
  bconBl := npDot con q.bcon
  bcovBl := npDot cov q.bcov
  uconCart := npDot conC q.ucon
  ucovCart := npDot covC q.ucov
  bconCart := npDot conC q.bcon
  bcovCart := npDot conC q.bcov

/-! ## Stresses -/

/-- `delta`, lines 628-629. -/
def delta (mu nu : Fin 4) : ℝ := if mu = nu then 1 else 0

/-- `Reynolds`, lines 639-643. -/
def reynolds (rho u press : ℝ) (q : State) : M4 := fun mu nu => (rho + u + press) * q.ucon mu * q.ucov nu + press * delta mu nu

/-- `Maxwell`, lines 644-649. -/
noncomputable def maxwell (q : State) : M4 := fun mu nu => bsq q * q.ucon mu * q.ucov nu + 1 / 2 * bsq q * delta mu nu - q.bcon mu * q.bcov nu

/-- Traces, lines 651-655. -/
def trace (T : M4) : ℝ := ∑ mu, T mu mu

/-- The "trace-free" parts, lines 657-662; `np.kron(mu,nu)` of two numbers is their product. -/
noncomputable def traceFree (T : M4) : M4 := fun mu nu => T mu nu - 1 / 3 * trace T * ((mu.val : ℝ) * (nu.val : ℝ))

/-- The squares, lines 664-669. -/
def square (T : M4) : ℝ := ∑ mu, ∑ nu, T mu nu * T nu mu

/-- `Maxwell/TF/sqrt` and `Reynolds/TF/sqrt`, lines 671-672. -/
noncomputable def size (T : M4) : Option ℝ := if square (traceFree T) < 0 then none else some (Real.sqrt (square (traceFree T)))

end Nubhlight.DumpVectors
