import Mathlib.Algebra.Field.Basic
import Mathlib.Algebra.Order.Field.Basic
import Mathlib.Tactic.Ring

set_option autoImplicit false

/-!
# Model of the constrained-transport step

Indices are zone indices relative to the first active zone (`i` here is the C index minus `NG`).
Arrays are total functions on `ℤ × ℤ × ℤ`; a loop over a range leaves the other entries untouched.
Floating point is replaced by an arbitrary field `K`.
-/

namespace Nubhlight.FluxCT

/-- A scalar grid array (`grid_double_type`), core/decs.h. -/
abbrev Arr (K : Type*) := ℤ → ℤ → ℤ → K

/-- The magnetic components of a `grid_prim_type` (fields `B1,B2,B3`), core/decs.h. -/
structure BArr (K : Type*) where
  b1 : Arr K
  b2 : Arr K
  b3 : Arr K

/-- Magnetic components of the three face-flux arrays `F1, F2, F3`, core/decs.h. -/
structure Fluxes (K : Type*) where
  f1 : BArr K
  f2 : BArr K
  f3 : BArr K

/-- Static work arrays of `flux_ct`, core/step.c:357-359. They keep stale values outside the loop
range of the call. -/
structure Emf (K : Type*) where
  e1 : Arr K
  e2 : Arr K
  e3 : Arr K

/-- Active grid size `N1,N2,N3`, core/decs.h. -/
structure Dims where
  n1 : ℤ
  n2 : ℤ
  n3 : ℤ

/-- Index range test of `ZSLOOP(a,b,c,d,e,f)`, core/decs.h:675-678 (both ends inclusive). -/
def inBox (a b c d e f i j k : ℤ) : Bool :=
  decide (a ≤ i) && decide (i ≤ b) && decide (c ≤ j) && decide (j ≤ d) && decide (e ≤ k) && decide (k ≤ f)

variable {K : Type*} [Field K]

/-- EMF loop of `flux_ct`, core/step.c:365-372. -/
def emfCalc (d : Dims) (F : Fluxes K) (old : Emf K) : Emf K where
  e3 i j k := if inBox 0 d.n1 0 d.n2 0 d.n3 i j k then
      (1/4) * (F.f1.b2 i j k + F.f1.b2 i (j-1) k - F.f2.b1 i j k - F.f2.b1 (i-1) j k)
    else old.e3 i j k
  e2 i j k := if inBox 0 d.n1 0 d.n2 0 d.n3 i j k then
      -(1/4) * (F.f1.b3 i j k + F.f1.b3 i j (k-1) - F.f3.b1 i j k - F.f3.b1 (i-1) j k)
    else old.e2 i j k
  e1 i j k := if inBox 0 d.n1 0 d.n2 0 d.n3 i j k then
      (1/4) * (F.f2.b3 i j k + F.f2.b3 i j (k-1) - F.f3.b2 i j k - F.f3.b2 i (j-1) k)
    else old.e1 i j k

/-- `flux_ct`, core/step.c:356-394: EMFs first (implicit barrier), then the three rewrite loops
(:376-380, :382-386, :388-392), each over its own index range. -/
def fluxCT (d : Dims) (F : Fluxes K) (old : Emf K) : Fluxes K :=
  let e := emfCalc d F old
  { f1 :=
      { b1 := fun i j k => if inBox 0 d.n1 0 (d.n2-1) 0 (d.n3-1) i j k then 0 else F.f1.b1 i j k
        b2 := fun i j k => if inBox 0 d.n1 0 (d.n2-1) 0 (d.n3-1) i j k then
                (1/2) * (e.e3 i j k + e.e3 i (j+1) k) else F.f1.b2 i j k
        b3 := fun i j k => if inBox 0 d.n1 0 (d.n2-1) 0 (d.n3-1) i j k then
                -(1/2) * (e.e2 i j k + e.e2 i j (k+1)) else F.f1.b3 i j k }
    f2 :=
      { b1 := fun i j k => if inBox 0 (d.n1-1) 0 d.n2 0 (d.n3-1) i j k then
                -(1/2) * (e.e3 i j k + e.e3 (i+1) j k) else F.f2.b1 i j k
        b2 := fun i j k => if inBox 0 (d.n1-1) 0 d.n2 0 (d.n3-1) i j k then 0 else F.f2.b2 i j k
        b3 := fun i j k => if inBox 0 (d.n1-1) 0 d.n2 0 (d.n3-1) i j k then
                (1/2) * (e.e1 i j k + e.e1 i j (k+1)) else F.f2.b3 i j k }
    f3 :=
      { b1 := fun i j k => if inBox 0 (d.n1-1) 0 (d.n2-1) 0 d.n3 i j k then
                (1/2) * (e.e2 i j k + e.e2 (i+1) j k) else F.f3.b1 i j k
        b2 := fun i j k => if inBox 0 (d.n1-1) 0 (d.n2-1) 0 d.n3 i j k then
                -(1/2) * (e.e1 i j k + e.e1 i (j+1) k) else F.f3.b2 i j k
        b3 := fun i j k => if inBox 0 (d.n1-1) 0 (d.n2-1) 0 d.n3 i j k then 0 else F.f3.b3 i j k } }

/-- Spacings `dx[1..3]`. -/
structure Spacing (K : Type*) where
  d1 : K
  d2 : K
  d3 : K

/-- Update of one magnetic variable of one zone: `primtoflux` in direction 0 gives `U[B] = g*B`
(core/phys.c:34-36,54, property C12), core/step.c:212-219 adds `Dt` times the flux differences
(the source `dU` of the magnetic variables is zero, core/phys.c:107-118) and `Utoprim` divides by `g`
(core/utop.c:37-39, done before any failure return). -/
def bZone (dx : Spacing K) (Dt g B f1p f1 f2p f2 f3p f3 : K) : K :=
  (g * B + Dt * (-(f1p - f1) / dx.d1 - (f2p - f2) / dx.d2 - (f3p - f3) / dx.d3 + 0)) / g

/-- Magnetic part of `advance`, core/step.c:177-228, on the active zones `ZLOOP`; `Pi` is the state
the update starts from, `F` the (already constrained) fluxes. Zones outside `ZLOOP` keep the old value of
the target array `Pf`. `g i j` is `ggeom[i][j][CENT].g`. -/
def advanceB (d : Dims) (dx : Spacing K) (Dt : K) (g : ℤ → ℤ → K) (Pi Pf : BArr K) (F : Fluxes K) :
    BArr K where
  b1 i j k := if inBox 0 (d.n1-1) 0 (d.n2-1) 0 (d.n3-1) i j k then
      bZone dx Dt (g i j) (Pi.b1 i j k) (F.f1.b1 (i+1) j k) (F.f1.b1 i j k)
        (F.f2.b1 i (j+1) k) (F.f2.b1 i j k) (F.f3.b1 i j (k+1)) (F.f3.b1 i j k)
    else Pf.b1 i j k
  b2 i j k := if inBox 0 (d.n1-1) 0 (d.n2-1) 0 (d.n3-1) i j k then
      bZone dx Dt (g i j) (Pi.b2 i j k) (F.f1.b2 (i+1) j k) (F.f1.b2 i j k)
        (F.f2.b2 i (j+1) k) (F.f2.b2 i j k) (F.f3.b2 i j (k+1)) (F.f3.b2 i j k)
    else Pf.b2 i j k
  b3 i j k := if inBox 0 (d.n1-1) 0 (d.n2-1) 0 (d.n3-1) i j k then
      bZone dx Dt (g i j) (Pi.b3 i j k) (F.f1.b3 (i+1) j k) (F.f1.b3 i j k)
        (F.f2.b3 i (j+1) k) (F.f2.b3 i j k) (F.f3.b3 i j (k+1)) (F.f3.b3 i j k)
    else Pf.b3 i j k

/-- The signed quantity inside `fabs` in `flux_ct_divb`, core/diag.c:382-414. -/
def divb (dx : Spacing K) (g : ℤ → ℤ → K) (P : BArr K) (i j k : ℤ) : K :=
  (1/4) * (P.b1 i j k * g i j + P.b1 i (j-1) k * g i (j-1) + P.b1 i j (k-1) * g i j
      + P.b1 i (j-1) (k-1) * g i (j-1) - P.b1 (i-1) j k * g (i-1) j
      - P.b1 (i-1) (j-1) k * g (i-1) (j-1) - P.b1 (i-1) j (k-1) * g (i-1) j
      - P.b1 (i-1) (j-1) (k-1) * g (i-1) (j-1)) / dx.d1
  + (1/4) * (P.b2 i j k * g i j + P.b2 (i-1) j k * g (i-1) j + P.b2 i j (k-1) * g i j
      + P.b2 (i-1) j (k-1) * g (i-1) j - P.b2 i (j-1) k * g i (j-1)
      - P.b2 (i-1) (j-1) k * g (i-1) (j-1) - P.b2 i (j-1) (k-1) * g i (j-1)
      - P.b2 (i-1) (j-1) (k-1) * g (i-1) (j-1)) / dx.d2
  + (1/4) * (P.b3 i j k * g i j + P.b3 i (j-1) k * g i (j-1) + P.b3 (i-1) j k * g (i-1) j
      + P.b3 (i-1) (j-1) k * g (i-1) (j-1) - P.b3 i j (k-1) * g i j
      - P.b3 i (j-1) (k-1) * g i (j-1) - P.b3 (i-1) j (k-1) * g (i-1) j
      - P.b3 (i-1) (j-1) (k-1) * g (i-1) (j-1)) / dx.d3

/-- `flux_ct_divb`, core/diag.c:382-414. -/
def fluxCtDivb {K : Type*} [Field K] [LinearOrder K] (dx : Spacing K) (g : ℤ → ℤ → K) (P : BArr K)
    (i j k : ℤ) : K := |divb dx g P i j k|

/-- One full step as far as the active magnetic field is concerned (core/step.c:26-104): predictor
`Ph = P + ½dt·…`, ghost update of `Ph` (`bound_prim` writes only ghost zones, property C18), corrector
`P ← P + dt·…` from the saved `P` with fluxes of `Ph`, ghost update. Fluxes of both stages, the ghost fills
and the stale work arrays are arbitrary inputs. Fix-ups do not touch `B` (properties C16, C17). -/
structure StepData (K : Type*) where
  dt : K
  fluxA : Fluxes K
  fluxB : Fluxes K
  staleA : Emf K
  staleB : Emf K
  ghost : BArr K

/-- Overwrite everything outside the active zones (any ghost fill), core/bounds.c:13-247. -/
def fillGhost (d : Dims) (ghost P : BArr K) : BArr K where
  b1 i j k := if inBox 0 (d.n1-1) 0 (d.n2-1) 0 (d.n3-1) i j k then P.b1 i j k else ghost.b1 i j k
  b2 i j k := if inBox 0 (d.n1-1) 0 (d.n2-1) 0 (d.n3-1) i j k then P.b2 i j k else ghost.b2 i j k
  b3 i j k := if inBox 0 (d.n1-1) 0 (d.n2-1) 0 (d.n3-1) i j k then P.b3 i j k else ghost.b3 i j k

/-- Predictor stage result `Ph`, core/step.c:48-62. -/
def predictorB (d : Dims) (dx : Spacing K) (g : ℤ → ℤ → K) (s : StepData K) (P : BArr K) : BArr K :=
  fillGhost d s.ghost (advanceB d dx ((1/2) * s.dt) g P P (fluxCT d s.fluxA s.staleA))

/-- Magnetic part of `step`: corrector stage result, core/step.c:90-104. The old `P` is both the start and
the target array (`advance(P, Ph, dt, P, 1)`). -/
def stepB (d : Dims) (dx : Spacing K) (g : ℤ → ℤ → K) (P : BArr K) (s : StepData K) : BArr K :=
  fillGhost d s.ghost (advanceB d dx s.dt g P P (fluxCT d s.fluxB s.staleB))

end Nubhlight.FluxCT
