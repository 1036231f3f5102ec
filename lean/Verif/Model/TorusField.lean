import Verif.Model.FluxCT
import Verif.Model.Fluid
import Verif.Model.ArrayIO
import Mathlib.Analysis.SpecialFunctions.Trigonometric.Basic

set_option autoImplicit false

/-!
# The initial magnetic field of tori

prob/torus_cbc/problem.c:444-508, and the same formulas in prob/torus/problem.c:275-311, 372-412, 476-487, 519-575, 578-638 and
prob/torus_eht/problem.c:183-219. Zone indices are relative to the first active zone of a rank; real numbers (or an ordered field) replace floating point.
A division by zero, or the root of a negative number, is `none`.
-/

namespace Nubhlight.TorusField
open FluxCT

section Potential
variable {K : Type*} [Field K]

/-- `P[B1]` from a vector potential at corners, prob/torus_cbc/problem.c:467-469. -/
def b1Of (dx : Spacing K) (g A : ℤ → ℤ → K) (i j : ℤ) : K :=
  -(A i j - A i (j + 1) + A (i + 1) j - A (i + 1) (j + 1)) / (2 * dx.d2 * g i j)

/-- `P[B2]` from a vector potential at corners, prob/torus_cbc/problem.c:470-471. -/
def b2Of (dx : Spacing K) (g A : ℤ → ℤ → K) (i j : ℤ) : K :=
  (A i j + A i (j + 1) - A (i + 1) j - A (i + 1) (j + 1)) / (2 * dx.d1 * g i j)

/-- The field of a vector potential in every zone, prob/torus_cbc/problem.c:463-472, without the bounds of the loop. -/
def curl (dx : Spacing K) (g A : ℤ → ℤ → K) : BArr K where
  b1 i j _ := b1Of dx g A i j
  b2 i j _ := b2Of dx g A i j
  b3 _ _ _ := 0

/-- The corner loop, `ZSLOOP(0, N1, 0, N2, 0, 0)`, of a rank with `n1 × n2` zones: `A[i][j]` is set from `f` inside the loop, and keeps its value elsewhere
(prob/torus_cbc/problem.c:448-459, prob/torus/problem.c:579-593). -/
def corners (n1 n2 : ℤ) (f old : ℤ → ℤ → K) (i j : ℤ) : K :=
  if 0 ≤ i ∧ i ≤ n1 ∧ 0 ≤ j ∧ j ≤ n2 then f i j else old i j

/-- The zone loop `ZLOOP` that sets the field from `A`, prob/torus_cbc/problem.c:463-472. -/
def setField (n1 n2 n3 : ℤ) (dx : Spacing K) (g A : ℤ → ℤ → K) (P : BArr K) : BArr K where
  b1 i j k := if inBox 0 (n1 - 1) 0 (n2 - 1) 0 (n3 - 1) i j k then b1Of dx g A i j else P.b1 i j k
  b2 i j k := if inBox 0 (n1 - 1) 0 (n2 - 1) 0 (n3 - 1) i j k then b2Of dx g A i j else P.b2 i j k
  b3 i j k := if inBox 0 (n1 - 1) 0 (n2 - 1) 0 (n3 - 1) i j k then 0 else P.b3 i j k

/-- The zone loop that multiplies the field by `norm`, prob/torus_cbc/problem.c:504-508. -/
def scaleField (n1 n2 n3 : ℤ) (c : K) (P : BArr K) : BArr K where
  b1 i j k := if inBox 0 (n1 - 1) 0 (n2 - 1) 0 (n3 - 1) i j k then P.b1 i j k * c else P.b1 i j k
  b2 i j k := if inBox 0 (n1 - 1) 0 (n2 - 1) 0 (n3 - 1) i j k then P.b2 i j k * c else P.b2 i j k
  b3 i j k := if inBox 0 (n1 - 1) 0 (n2 - 1) 0 (n3 - 1) i j k then P.b3 i j k * c else P.b3 i j k

/-- The zone loop that adds the net flux, prob/torus/problem.c:628-638. -/
def addField (n1 n2 n3 : ℤ) (c : K) (dx : Spacing K) (g A : ℤ → ℤ → K) (P : BArr K) : BArr K where
  b1 i j k := if inBox 0 (n1 - 1) 0 (n2 - 1) 0 (n3 - 1) i j k then
      P.b1 i j k + -c * (A i j - A i (j + 1) + A (i + 1) j - A (i + 1) (j + 1)) / (2 * dx.d2 * g i j)
    else P.b1 i j k
  b2 i j k := if inBox 0 (n1 - 1) 0 (n2 - 1) 0 (n3 - 1) i j k then
      P.b2 i j k + c * (A i j + A i (j + 1) - A (i + 1) j - A (i + 1) (j + 1)) / (2 * dx.d1 * g i j)
    else P.b2 i j k
  b3 := P.b3

variable [LinearOrder K]

/-- The potential at a corner, from the density in the plane `k` of the array, prob/torus_cbc/problem.c:450-458; the code takes the outermost ghost plane
`P[i][j][0]`, that is `k = -NG`. -/
def potential (rho : ℤ → ℤ → ℤ → K) (k : ℤ) (rhomax : K) (i j : ℤ) : K :=
  let rhoAv := (1 / 4) * (rho i j k + rho (i - 1) j k + rho i (j - 1) k + rho (i - 1) (j - 1) k)
  let q := rhoAv / rhomax - 1 / 5
  if 0 < q then q else 0

/-- The field one rank computes for the "classic" disk, prob/torus_cbc/problem.c:448-477, 504-508: `rho` is its stored density (with ghost zones), `old` and
`P` what the arrays held before. -/
def classicRank (n1 n2 n3 : ℤ) (dx : Spacing K) (g : ℤ → ℤ → K) (rho : ℤ → ℤ → ℤ → K) (rhomax c : K) (old : ℤ → ℤ → K) (P : BArr K) : BArr K :=
  scaleField n1 n2 n3 c (setField n1 n2 n3 dx g (corners n1 n2 (potential rho (-(Decomp.NG : ℤ)) rhomax) old) P)

/-- The same with a second potential `A2` added, prob/torus/problem.c:519-575 (`MAD == 1`), 578-593, 626-638. -/
def netRank (n1 n2 n3 : ℤ) (dx : Spacing K) (g : ℤ → ℤ → K) (rho : ℤ → ℤ → ℤ → K) (rhomax c d : K) (A2 old : ℤ → ℤ → K) (P : BArr K) : BArr K :=
  addField n1 n2 n3 d dx g (corners n1 n2 A2 (corners n1 n2 (potential rho (-(Decomp.NG : ℤ)) rhomax) old))
    (classicRank n1 n2 n3 dx g rho rhomax c old P)

/-- The field one rank computes for the "toroidal" disk, prob/torus_cbc/problem.c:483-489, 504-508. -/
def toroidalRank (n1 n2 n3 : ℤ) (rho : ℤ → ℤ → ℤ → K) (rhomax c : K) (P : BArr K) : BArr K :=
  scaleField n1 n2 n3 c
    { b1 := fun i j k => if inBox 0 (n1 - 1) 0 (n2 - 1) 0 (n3 - 1) i j k then 0 else P.b1 i j k
      b2 := fun i j k => if inBox 0 (n1 - 1) 0 (n2 - 1) 0 (n3 - 1) i j k then 0 else P.b2 i j k
      b3 := fun i j k => if inBox 0 (n1 - 1) 0 (n2 - 1) 0 (n3 - 1) i j k then (if 0 < rho i j k / rhomax - 1 / 5 then 1 else 0) else P.b3 i j k }

end Potential

/-! ## Strength -/

/-- A zone: its gas and its metric. -/
structure Zone where
  P : Fluid.Prim
  G : Fluid.Geom

/-- `bsq_calc(P[i][j][k], geom)`, core/phys.c:122-127. -/
noncomputable def Zone.bsq (z : Zone) : ℝ := Fluid.bsqCalc z.P z.G

/-- `P[B1..B3] *= norm`, prob/torus_cbc/problem.c:505-507. -/
noncomputable def Zone.scale (c : ℝ) (z : Zone) : Zone := ⟨fun i => if 5 ≤ i.val then z.P i * c else z.P i, z.G⟩

/-- `bsq_max` of one rank, prob/torus_cbc/problem.c:462-477, 482-495. -/
noncomputable def rankMax (zs : List Zone) : ℝ := zs.foldl (fun m z => if z.bsq > m then z.bsq else m) 0

/-- `mpi_max`, core/mpi.c:588-592: the largest of the values of all ranks, on every rank. -/
noncomputable def mpiMax : List ℝ → ℝ
  | [] => 0
  | a :: l => l.foldl max a

/-- `norm`, prob/torus_cbc/problem.c:502-503. -/
noncomputable def normOf (pressmax beta bsqMax : ℝ) : Option ℝ :=
  if 1 / 2 * bsqMax = 0 ∨ beta = 0 then none
  else
    let betaAct := pressmax / (1 / 2 * bsqMax)
    if betaAct / beta < 0 then none else some (Real.sqrt (betaAct / beta))

/-- The configurations, prob/torus_cbc/problem.c:445, 479. -/
inductive Kind
  | classic
  | toroidal

/-- `bsq_max` as each rank holds it when it normalises: after `mpi_max` (prob/torus_cbc/problem.c:478) in the first configuration, its own in the second
(prob/torus_cbc/problem.c:479-495). -/
noncomputable def heldMax (kind : Kind) (ranks : List (List Zone)) (zs : List Zone) : ℝ :=
  match kind with
  | .classic => mpiMax (ranks.map rankMax)
  | .toroidal => rankMax zs

/-- The normalisation of all ranks, prob/torus_cbc/problem.c:502-508; `ranks` holds the zones of each with the field before it. -/
noncomputable def normalise (kind : Kind) (pressmax beta : ℝ) (ranks : List (List Zone)) : Option (List (List Zone)) :=
  ranks.mapM fun zs => (normOf pressmax beta (heldMax kind ranks zs)).map fun c => zs.map (Zone.scale c)

/-! ## Net flux -/

/-- What the net flux is summed over: potential at the corners, metric determinant and radius of the zones by their place in the whole grid. -/
structure NetData where
  A : ℤ → ℤ → ℝ
  g : ℤ → ℤ → ℝ
  r : ℤ → ℤ → ℝ
  rin : ℝ
  dx : Spacing ℝ

/-- `Phi` of one rank before `mpi_reduce`, prob/torus/problem.c:596-623. -/
noncomputable def phiRank (E : NetData) (D : ArrayIO.Div) (c : ℕ × ℕ × ℕ) : ℝ :=
  (∑ i ∈ Finset.Ico 5 D.n1, ∑ j ∈ Finset.range D.n2,
    if D.s2 c + j = D.N2 / 2 ∧ E.r (D.s1 c + i) (D.s2 c + j) < E.rin then
      E.g (D.s1 c + i) (D.s2 c + j) * 2 * Real.pi * E.dx.d1 * |b2Of E.dx E.g E.A (D.s1 c + i) (D.s2 c + j)| / D.C3
    else 0)
  + if D.s1 c = 0 then
      ∑ j ∈ Finset.range (D.n2 / 2),
        E.g (D.s1 c + 5) (D.s2 c + j) * E.dx.d2 * 2 * Real.pi * |b1Of E.dx E.g E.A (D.s1 c + 5) (D.s2 c + j)| / D.C3
    else 0

/-- The coordinates of all ranks. -/
def allRanks (D : ArrayIO.Div) : Finset (ℕ × ℕ × ℕ) := Finset.range D.C1 ×ˢ Finset.range D.C2 ×ˢ Finset.range D.C3

/-- `Phi` after `mpi_reduce`, prob/torus/problem.c:624. -/
noncomputable def phi (E : NetData) (D : ArrayIO.Div) : ℝ := ∑ c ∈ allRanks D, phiRank E D c

/-- `norm`, prob/torus/problem.c:626. -/
noncomputable def netNorm (BHflux : ℝ) (E : NetData) (D : ArrayIO.Div) : ℝ := BHflux / (phi E D + Fluid.SMALL)

/-- The radii between which loops are laid, prob/torus/problem.c:337-366: found on the grid by one process, constants with more. -/
noncomputable def loopRadii (nprocs : ℕ) (found : ℝ × ℝ) : ℝ × ℝ := if nprocs > 1 then (23.35894, 373.7892) else found

/-- What the potential of a loop is multiplied by, prob/torus/problem.c:419-422, 467-471. -/
noncomputable def loopFactor (nprocs : ℕ) (n : Fin 4) (betaMin beta : ℝ) : ℝ :=
  if nprocs > 1 then (![1.626547, 1.902312, 4.663646, 26.93245] : Fin 4 → ℝ) n else Real.sqrt (betaMin / beta)

end Nubhlight.TorusField
