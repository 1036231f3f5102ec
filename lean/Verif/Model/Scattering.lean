import Mathlib.Analysis.SpecialFunctions.Log.Base
import Mathlib.Analysis.SpecialFunctions.Pow.Real
import Mathlib.Analysis.SpecialFunctions.Trigonometric.Basic
import Mathlib.Analysis.Real.Sqrt

set_option autoImplicit false

/-!
# Scattering

core/scattering.c. Numbers are real; random numbers are arguments. Not modelled: `scatter_superphoton` (tetrads are in `Tetrad`), the numerical integral `total_cross_num`, NaN checks.
-/

namespace Nubhlight.Scattering

noncomputable section

/-! ## Boost -/

/-- A four-vector. -/
structure V4 where
  t : ℝ
  x : ℝ
  y : ℝ
  z : ℝ

/-- `boost`, core/scattering.c:606-624; `small` is `SMALL` (core/decs.h:87). -/
def boost (small : ℝ) (v u : V4) : V4 :=
  let g := u.t
  let V := Real.sqrt |1 - 1 / (g * g)|
  let n1 := u.x / (g * V + small)
  let n2 := u.y / (g * V + small)
  let n3 := u.z / (g * V + small)
  let gm1 := g - 1
  ⟨u.t * v.t - u.x * v.x - u.y * v.y - u.z * v.z,
   -u.x * v.t + (1 + n1 * n1 * gm1) * v.x + n1 * n2 * gm1 * v.y + n1 * n3 * gm1 * v.z,
   -u.y * v.t + n2 * n1 * gm1 * v.x + (1 + n2 * n2 * gm1) * v.y + n2 * n3 * gm1 * v.z,
   -u.z * v.t + n3 * n1 * gm1 * v.x + n3 * n2 * gm1 * v.y + (1 + n3 * n3 * gm1) * v.z⟩

/-! ## Compton scattering -/

/-- `klein_nishina`, core/scattering.c:674-679. -/
def kleinNishina (a ap : ℝ) : ℝ :=
  let ch := 1 + 1 / a - 1 / ap
  (a / ap + ap / a - 1 + ch * ch) / (a * a)

/-- `sample_klein_nishina`, core/scattering.c:651-672, on a list of pairs of random numbers; `none` if none of the pairs is accepted. -/
def sampleKN (k0 : ℝ) : List (ℝ × ℝ) → Option ℝ
  | [] => none
  | (r, s) :: l =>
    let kmin := k0 / (1 + 2 * k0)
    let tent := kmin + (k0 - kmin) * r
    open Classical in
    if 2 * (1 + 2 * k0 + 2 * k0 * k0) / (k0 * k0 * (1 + 2 * k0)) * s ≥ kleinNishina k0 tent then sampleKN k0 l else some tent

/-- The cosine, core/scattering.c:631. -/
def comptonCos (k k0p : ℝ) : ℝ := 1 - 1 / k0p + 1 / k

/-! ## Sampling of the scatterer -/

/-- `sample_mu` before clamping, core/scattering.c:481-488. -/
def sampleMu (beta x1 : ℝ) : ℝ := (1 - Real.sqrt (1 + 2 * beta + beta * beta - 4 * beta * x1)) / beta

/-- The unnormalised weights of `sample_y`, core/scattering.c:434-437, for the chi-square distributions with 3, 4, 5, 6 degrees of freedom. -/
def yWeight (th : ℝ) : Fin 4 → ℝ
  | 0 => Real.sqrt Real.pi / 4
  | 1 => Real.sqrt (0.5 * th) / 2
  | 2 => 3 * Real.sqrt Real.pi * th / 8
  | 3 => th * Real.sqrt (0.5 * th)

/-- The normalised weights, core/scattering.c:439-444. -/
def yProb (th : ℝ) (i : Fin 4) : ℝ := yWeight th i / (yWeight th 0 + yWeight th 1 + yWeight th 2 + yWeight th 3)

/-- The branch, core/scattering.c:452-460: index `i` is the distribution with `i + 3` degrees of freedom. -/
def yBranch (th x1 : ℝ) : Fin 4 :=
  open Classical in
  if x1 < yProb th 0 then 0 else if x1 < yProb th 0 + yProb th 1 then 1 else if x1 < yProb th 0 + yProb th 1 + yProb th 2 then 2 else 3

/-- The probability to accept `y`, core/scattering.c:466-469. -/
def yAccept (th y : ℝ) : ℝ := Real.sqrt (1 + 0.5 * th * y * y) / (1 + y * Real.sqrt (0.5 * th))

/-! ## The direction after scattering -/

/-- Three-vectors. -/
structure V3 where
  x : ℝ
  y : ℝ
  z : ℝ

def dot (a b : V3) : ℝ := a.x * b.x + a.y * b.y + a.z * b.z

/-- The new direction, core/scattering.c:540-586 (and, for the scatterer, 377-416): `v` is the old wave vector, `n0` the random direction. -/
def newDir (v n0 : V3) (cth phi : ℝ) : V3 :=
  let sth := Real.sqrt |1 - cth * cth|
  let vm := Real.sqrt (dot v v)
  let v0 : V3 := ⟨v.x / vm, v.y / vm, v.z / vm⟩
  let d := dot v0 n0
  let w : V3 := ⟨n0.x - d * v0.x, n0.y - d * v0.y, n0.z - d * v0.z⟩
  let wm := Real.sqrt (dot w w)
  let v1 : V3 := ⟨w.x / wm, w.y / wm, w.z / wm⟩
  let v2 : V3 := ⟨v0.y * v1.z - v0.z * v1.y, v0.z * v1.x - v0.x * v1.z, v0.x * v1.y - v0.y * v1.x⟩
  ⟨cth * v0.x + sth * (Real.cos phi * v1.x + Real.sin phi * v2.x), cth * v0.y + sth * (Real.cos phi * v1.y + Real.sin phi * v2.y),
    cth * v0.z + sth * (Real.cos phi * v1.z + Real.sin phi * v2.z)⟩

/-- `sample_scattered_rad`, core/scattering.c:529-594, after the energy `k0p` and cosine `cth` were drawn. -/
def scattered (small : ℝ) (k p : V4) (n0 : V3) (k0p cth phi : ℝ) : V4 :=
  let ke := boost small k p
  let d := newDir ⟨ke.x, ke.y, ke.z⟩ n0 cth phi
  boost small ⟨k0p, k0p * d.x, k0p * d.y, k0p * d.z⟩ ⟨p.t, -p.x, -p.y, -p.z⟩

/-! ## Neutrino cross sections -/

/-- Scatterers, core/decs.h:176-180. -/
inductive Target
  | proton | neutron | ion | alpha | electron
  deriving DecidableEq

/-- Constants, core/constants.h:26-29, and mean ion. -/
structure Consts where
  S2 : ℝ
  GA2 : ℝ
  N0 : ℝ
  A : ℝ
  Z : ℝ

/-- `hc_quad`, core/scattering.c:1074-1079, with `W = h numax / (m c²)`. -/
def hcQuad (W we : ℝ) : ℝ := open Classical in if we ≥ W then W * W else we * we

/-- `total_cross_ions`, core/scattering.c:1022-1030. -/
def ions (c : Consts) (sigma A Z : ℝ) : ℝ :=
  let w := 1 - 2 * (Z / A) * (1 - 2 * c.S2)
  1 / 16 * c.N0 * sigma * A * A * (w + 1) * (w + 1)

/-- `nu_cross_factor`, core/scattering.c:1054-1072; `none` is `exit`. -/
def factor (c : Consts) (heavy : Bool) (tg : Target) (sigma : ℝ) : Option ℝ :=
  match tg with
  | .electron => if heavy then some 0 else none
  | .proton => some (0.25 * c.N0 * sigma * (4 * (c.S2 * c.S2) - 2 * c.S2 + 0.25 * (1 + 3 * c.GA2)))
  | .neutron => some (c.N0 / 4 * sigma * (1 + 3 * c.GA2) / 4)
  | .ion => some (ions c sigma c.A c.Z)
  | .alpha => some (ions c sigma 4 2)

/-- `nu_cross_delta`, core/scattering.c:1033-1051. -/
def delta (c : Consts) (heavy : Bool) (tg : Target) : Option ℝ :=
  match tg with
  | .electron => if heavy then some 0 else none
  | .proton =>
    let v := 0.5 + 2 * c.S2
    let a : ℝ := 0.5
    some (((v - 1) * (v - 1) - c.GA2 * (a - 1) * (a - 1)) / ((v - 1) * (v - 1) + 3 * c.GA2 * (a - 1) * (a - 1)))
  | .neutron => some ((1 - c.GA2) / (1 + 3 * c.GA2))
  | .ion => some 1
  | .alpha => some 1

/-- `nu_cross`, core/scattering.c:999-1008. -/
def nuCross (c : Consts) (W : ℝ) (heavy : Bool) (tg : Target) (w mu : ℝ) : Option ℝ :=
  (delta c heavy tg).bind fun d => (factor c heavy tg (hcQuad W w)).map fun f => hcQuad W w * f / (4 * Real.pi) * (1 + d * mu)

/-- `nu_cross_max`, core/scattering.c:1010-1019, with `hc_quad_max`, 1081-1084. -/
def nuCrossMax (c : Consts) (W : ℝ) (heavy : Bool) (tg : Target) : Option ℝ :=
  (delta c heavy tg).bind fun d => (factor c heavy tg (hcQuad W W)).map fun f => f / (4 * Real.pi) * (1 + |d|)

/-- `get_total_cross_section`, neutrinos, not normalised and normalised, core/scattering.c:516-523. -/
def total (c : Consts) (W : ℝ) (heavy : Bool) (tg : Target) (w : ℝ) : Option ℝ := factor c heavy tg (hcQuad W w)
def totalNorm (W w : ℝ) : ℝ := hcQuad W w / hcQuad W W

/-- `ms_flat`, core/scattering.c:980-987, with `N0 = NUSIGMA0`, `th = ms_theta_nu0`, `d = ms_delta0`. -/
def msFlat (N0 th d : ℝ) (i : ℕ) (mu : ℝ) : ℝ := 1 * ((2 * 2 * i + 1) * N0 * th ^ 2 / (16 * Real.pi)) * (1 + d * mu ^ (2 * i + 1))

/-- `ms_flat_max`, core/scattering.c:989-995. -/
def msFlatMax (N0 th d : ℝ) (i : ℕ) : ℝ :=
  open Classical in if d > 0 then msFlat N0 th d i 1 else if d < 0 then msFlat N0 th d i (-1) else msFlat N0 th d i 0

/-- `get_total_cross_section` in the multiple-scattering test, core/scattering.c:507-515. -/
def msTotal (N0 th : ℝ) (i : ℕ) : ℝ := 1 * ((2 * 2 * i + 1) * N0 * th ^ 2 / 4)

/-- `rejection_sample`, core/scattering.c:947-958, on a list of pairs of random numbers. -/
def rejection (f : ℝ → ℝ) (xmax : ℝ) : List (ℝ × ℝ) → Option ℝ
  | [] => none
  | (r, s) :: l => open Classical in if s * xmax ≥ f (2 * r - 1) then rejection f xmax l else some (2 * r - 1)

/-! ## The table -/

/-- Conversion to `int`. -/
def trunc (x : ℝ) : ℤ := open Classical in if 0 ≤ x then ⌊x⌋ else ⌈x⌉

/-- The clamps, core/scattering.c:776-783, for one variable. -/
def clamp (lo hi x : ℝ) : ℝ :=
  open Classical in
  let x := if x ≤ lo then lo + |0.01 * lo| else x
  if x ≥ hi then hi - |0.01 * hi| else x

/-- Position in one direction, core/scattering.c:702-705, 788-793: index and fraction. -/
def locate (lo hi : ℝ) (n : ℕ) (x : ℝ) : ℤ × ℝ :=
  let dl := Real.logb 10 (hi / lo) / n
  let q := (Real.logb 10 x - Real.logb 10 lo) / dl
  (trunc q, q - trunc q)

/-- Range of the table: `MINW`, `MAXW`, `MINT`, `MAXT`, `NW`, `NT`, core/scattering.c:14-19, 701. -/
structure Range where
  minW : ℝ
  maxW : ℝ
  minT : ℝ
  maxT : ℝ
  NW : ℕ
  NT : ℕ

/-- The indices used and the value of `interpolate_hc_table`, core/scattering.c:765-811; `none`: outside the table, the integral is done instead. -/
def interpolate (R : Range) (table : ℤ → ℤ → ℝ) (w th : ℝ) : Option (ℤ × ℤ × ℝ) :=
  open Classical in
  let w := clamp R.minW R.maxW w
  let th := clamp R.minT R.maxT th
  if (w > R.minW ∧ w < R.maxW) ∧ (th > R.minT ∧ th < R.maxT) then
    let a := locate R.minW R.maxW R.NW w
    let b := locate R.minT R.maxT R.NT th
    some (a.1, b.1, (10 : ℝ) ^ ((1 - a.2) * (1 - b.2) * table a.1 b.1 + a.2 * (1 - b.2) * table (a.1 + 1) b.1 +
      (1 - a.2) * b.2 * table a.1 (b.1 + 1) + a.2 * b.2 * table (a.1 + 1) (b.1 + 1)))
  else none

/-! ## Making the table -/

/-- The statements of one iteration, core/scattering.c:715-717. `lw` and `lT` are declared outside the parallel region (698) and are shared by the threads; they are represented by the indices they were
computed from. -/
inductive Op
  | setW (i : ℕ)
  | setT (j : ℕ)
  | store (i j : ℕ)

/-- Shared memory; `none` is uninitialised or not yet written. -/
structure Mem where
  lw : Option ℕ
  lT : Option ℕ
  table : ℕ → ℕ → Option ℝ

/-- One statement: `f i j` is the logarithm of the cross section at node `(i, j)`. -/
def Op.run (f : ℕ → ℕ → ℝ) (m : Mem) : Op → Mem
  | .setW i => { m with lw := some i }
  | .setT j => { m with lT := some j }
  | .store i j => { m with table := fun a b => if a = i ∧ b = j then (m.lw.bind fun p => m.lT.map fun q => f p q) else m.table a b }

/-- The body of iteration `(i, j)`. -/
def body (ij : ℕ × ℕ) : List Op := [.setW ij.1, .setT ij.2, .store ij.1 ij.2]

/-- Running threads: at each moment the scheduler picks a thread, which performs its next statement. -/
def runSched (f : ℕ → ℕ → ℝ) : List ℕ → (ℕ → List Op) → Mem → Mem
  | [], _, m => m
  | t :: s, prog, m =>
    match prog t with
    | [] => runSched f s prog m
    | o :: rest => runSched f s (Function.update prog t rest) (o.run f m)

def mem0 : Mem := ⟨none, none, fun _ _ => none⟩

/-- The node, core/scattering.c:715-716. -/
def nodeLog (lo hi : ℝ) (n : ℕ) (i : ℕ) : ℝ := Real.logb 10 lo + i * (Real.logb 10 (hi / lo) / n)

/-- `init_hc_table` on one thread, core/scattering.c:695-763: an existing file is used as it is, whatever range it was made for. `sig numax lw lT` is the logarithm of the cross section, `rnd` the
rounding of the file; `maxW` depends on `numax` (701). Result: the table used and the file left. -/
def initTable (rnd : ℝ → ℝ) (sig : ℝ → ℝ → ℝ → ℝ) (maxW : ℝ → ℝ) (R : Range) (numax : ℝ) (file : Option (ℕ → ℕ → ℝ)) : (ℕ → ℕ → ℝ) × Option (ℕ → ℕ → ℝ) :=
  let made := fun i j => rnd (sig numax (nodeLog R.minW (maxW numax) R.NW i) (nodeLog R.minT R.maxT R.NT j))
  match file with
  | none => (made, some made)
  | some c => (c, some c)

/-- Runs in one directory, one after the other: the table used by the last. -/
def runsTable (rnd : ℝ → ℝ) (sig : ℝ → ℝ → ℝ → ℝ) (maxW : ℝ → ℝ) (R : Range) : List ℝ → ℝ → Option (ℕ → ℕ → ℝ) → (ℕ → ℕ → ℝ)
  | [], last, file => (initTable rnd sig maxW R last file).1
  | n :: l, last, file => runsTable rnd sig maxW R l last (initTable rnd sig maxW R n file).2

end

end Nubhlight.Scattering
