import Verif.Model.FluxCT
import Verif.Model.Rounding

set_option autoImplicit false

/-! # The magnetic update in floating-point arithmetic

The same step as in `Verif.Model.FluxCT`, with a rounding `rnd` after every operation the program makes, in the order of the C expressions (left to
right; no contraction of a product and a sum into one operation, no reassociation). -/

namespace Nubhlight.FloatCT

open FluxCT (Arr BArr Fluxes Emf Dims Spacing inBox fillGhost)

/-- EMF loop of `flux_ct`, core/step.c:365-372, rounded. -/
def emfF (rnd : ℚ → ℚ) (d : Dims) (F : Fluxes ℚ) (old : Emf ℚ) : Emf ℚ where
  e3 i j k := if inBox 0 d.n1 0 d.n2 0 d.n3 i j k then
      rnd (1 / 4 * rnd (rnd (rnd (F.f1.b2 i j k + F.f1.b2 i (j-1) k) - F.f2.b1 i j k) - F.f2.b1 (i-1) j k))
    else old.e3 i j k
  e2 i j k := if inBox 0 d.n1 0 d.n2 0 d.n3 i j k then
      rnd (-(1 / 4) * rnd (rnd (rnd (F.f1.b3 i j k + F.f1.b3 i j (k-1)) - F.f3.b1 i j k) - F.f3.b1 (i-1) j k))
    else old.e2 i j k
  e1 i j k := if inBox 0 d.n1 0 d.n2 0 d.n3 i j k then
      rnd (1 / 4 * rnd (rnd (rnd (F.f2.b3 i j k + F.f2.b3 i j (k-1)) - F.f3.b2 i j k) - F.f3.b2 i (j-1) k))
    else old.e1 i j k

/-- Second half of `flux_ct`, core/step.c:374-392, rounded: fluxes written from the EMFs. -/
def rewriteF (rnd : ℚ → ℚ) (d : Dims) (F : Fluxes ℚ) (e : Emf ℚ) : Fluxes ℚ :=
  { f1 :=
      { b1 := fun i j k => if inBox 0 d.n1 0 (d.n2-1) 0 (d.n3-1) i j k then 0 else F.f1.b1 i j k
        b2 := fun i j k => if inBox 0 d.n1 0 (d.n2-1) 0 (d.n3-1) i j k then
                rnd (1 / 2 * rnd (e.e3 i j k + e.e3 i (j+1) k)) else F.f1.b2 i j k
        b3 := fun i j k => if inBox 0 d.n1 0 (d.n2-1) 0 (d.n3-1) i j k then
                rnd (-(1 / 2) * rnd (e.e2 i j k + e.e2 i j (k+1))) else F.f1.b3 i j k }
    f2 :=
      { b1 := fun i j k => if inBox 0 (d.n1-1) 0 d.n2 0 (d.n3-1) i j k then
                rnd (-(1 / 2) * rnd (e.e3 i j k + e.e3 (i+1) j k)) else F.f2.b1 i j k
        b2 := fun i j k => if inBox 0 (d.n1-1) 0 d.n2 0 (d.n3-1) i j k then 0 else F.f2.b2 i j k
        b3 := fun i j k => if inBox 0 (d.n1-1) 0 d.n2 0 (d.n3-1) i j k then
                rnd (1 / 2 * rnd (e.e1 i j k + e.e1 i j (k+1))) else F.f2.b3 i j k }
    f3 :=
      { b1 := fun i j k => if inBox 0 (d.n1-1) 0 (d.n2-1) 0 d.n3 i j k then
                rnd (1 / 2 * rnd (e.e2 i j k + e.e2 (i+1) j k)) else F.f3.b1 i j k
        b2 := fun i j k => if inBox 0 (d.n1-1) 0 (d.n2-1) 0 d.n3 i j k then
                rnd (-(1 / 2) * rnd (e.e1 i j k + e.e1 i (j+1) k)) else F.f3.b2 i j k
        b3 := fun i j k => if inBox 0 (d.n1-1) 0 (d.n2-1) 0 d.n3 i j k then 0 else F.f3.b3 i j k } }

/-- `flux_ct`, core/step.c:356-394, rounded. -/
def fluxCTF (rnd : ℚ → ℚ) (d : Dims) (F : Fluxes ℚ) (old : Emf ℚ) : Fluxes ℚ := rewriteF rnd d F (emfF rnd d F old)

/-- The state of one zone as the magnetic update sees it: the four-velocity with upper indices and `bcon[0]`, as computed by `get_state` (core/phys.c:130-135).
How they are computed is not modelled; any numbers are allowed. -/
structure Zone where
  u0 : ℚ
  u1 : ℚ
  u2 : ℚ
  u3 : ℚ
  b0 : ℚ

/-- `bcon[j]`, core/phys.c:60-61, rounded. -/
def bconF (rnd : ℚ → ℚ) (u0 uj b0 B : ℚ) : ℚ := rnd (rnd (B + rnd (b0 * uj)) / u0)

/-- Conserved magnetic variable: `primtoflux` in direction 0, core/phys.c:34-36 and :54, rounded. -/
def consF (rnd : ℚ → ℚ) (g u0 uj b0 B : ℚ) : ℚ :=
  rnd (rnd (rnd (bconF rnd u0 uj b0 B * u0) - rnd (b0 * uj)) * g)

/-- The bracket of core/step.c:216-218 for a magnetic variable, rounded; the source is zero (core/phys.c:107-118). -/
def rateF (rnd : ℚ → ℚ) (dx : Spacing ℚ) (f1p f1 f2p f2 f3p f3 : ℚ) : ℚ :=
  rnd (rnd (rnd (rnd (-rnd (f1p - f1) / dx.d1) - rnd (rnd (f2p - f2) / dx.d2)) - rnd (rnd (f3p - f3) / dx.d3)) + 0)

/-- Update of one magnetic variable of one zone, rounded: core/step.c:212-219, and division by `g` in `Utoprim` (core/utop.c:37-39). -/
def zoneF (rnd : ℚ → ℚ) (dx : Spacing ℚ) (Dt g u0 uj b0 B f1p f1 f2p f2 f3p f3 : ℚ) : ℚ :=
  rnd (rnd (consF rnd g u0 uj b0 B + rnd (Dt * rateF rnd dx f1p f1 f2p f2 f3p f3)) / g)

/-- Magnetic part of `advance`, core/step.c:177-228, rounded; as `FluxCT.advanceB`, with the states `st` of the zones of `Pi`. -/
def advanceF (rnd : ℚ → ℚ) (d : Dims) (dx : Spacing ℚ) (Dt : ℚ) (g : ℤ → ℤ → ℚ) (st : ℤ → ℤ → ℤ → Zone) (Pi Pf : BArr ℚ) (F : Fluxes ℚ) :
    BArr ℚ where
  b1 i j k := if inBox 0 (d.n1-1) 0 (d.n2-1) 0 (d.n3-1) i j k then
      zoneF rnd dx Dt (g i j) (st i j k).u0 (st i j k).u1 (st i j k).b0 (Pi.b1 i j k) (F.f1.b1 (i+1) j k) (F.f1.b1 i j k)
        (F.f2.b1 i (j+1) k) (F.f2.b1 i j k) (F.f3.b1 i j (k+1)) (F.f3.b1 i j k)
    else Pf.b1 i j k
  b2 i j k := if inBox 0 (d.n1-1) 0 (d.n2-1) 0 (d.n3-1) i j k then
      zoneF rnd dx Dt (g i j) (st i j k).u0 (st i j k).u2 (st i j k).b0 (Pi.b2 i j k) (F.f1.b2 (i+1) j k) (F.f1.b2 i j k)
        (F.f2.b2 i (j+1) k) (F.f2.b2 i j k) (F.f3.b2 i j (k+1)) (F.f3.b2 i j k)
    else Pf.b2 i j k
  b3 i j k := if inBox 0 (d.n1-1) 0 (d.n2-1) 0 (d.n3-1) i j k then
      zoneF rnd dx Dt (g i j) (st i j k).u0 (st i j k).u3 (st i j k).b0 (Pi.b3 i j k) (F.f1.b3 (i+1) j k) (F.f1.b3 i j k)
        (F.f2.b3 i (j+1) k) (F.f2.b3 i j k) (F.f3.b3 i j (k+1)) (F.f3.b3 i j k)
    else Pf.b3 i j k

/-- What one step brings from outside the magnetic update: as `FluxCT.StepData`, with the states of the zones. Only the corrector stage starts from
and writes the field kept from step to step; its fluxes are those of the half-step state, and arbitrary here. -/
structure Step where
  dt : ℚ
  flux : Fluxes ℚ
  stale : Emf ℚ
  ghost : BArr ℚ
  st : ℤ → ℤ → ℤ → Zone

/-- Magnetic part of `step`, core/step.c:90-104, rounded; as `FluxCT.stepB`. -/
def stepF (rnd : ℚ → ℚ) (d : Dims) (dx : Spacing ℚ) (g : ℤ → ℤ → ℚ) (P : BArr ℚ) (s : Step) : BArr ℚ :=
  fillGhost d s.ghost (advanceF rnd d dx s.dt g s.st P P (fluxCTF rnd d s.flux s.stale))

/-- One of the three brackets of `flux_ct_divb`, core/diag.c:384-393 (likewise :394-403 and :404-413), rounded: eight products, added and subtracted from left
to right, times 0.25, divided by the width. -/
def cornerF (rnd : ℚ → ℚ) (dd p1 p2 p3 p4 p5 p6 p7 p8 : ℚ) : ℚ :=
  rnd (rnd (1 / 4 * rnd (rnd (rnd (rnd (rnd (rnd (rnd (p1 + p2) + p3) + p4) - p5) - p6) - p7) - p8)) / dd)

/-- `flux_ct_divb`, core/diag.c:382-414, rounded. -/
def divbF (rnd : ℚ → ℚ) (dx : Spacing ℚ) (g : ℤ → ℤ → ℚ) (P : BArr ℚ) (i j k : ℤ) : ℚ :=
  |rnd (rnd (
    cornerF rnd dx.d1 (rnd (P.b1 i j k * g i j)) (rnd (P.b1 i (j-1) k * g i (j-1))) (rnd (P.b1 i j (k-1) * g i j))
      (rnd (P.b1 i (j-1) (k-1) * g i (j-1))) (rnd (P.b1 (i-1) j k * g (i-1) j)) (rnd (P.b1 (i-1) (j-1) k * g (i-1) (j-1)))
      (rnd (P.b1 (i-1) j (k-1) * g (i-1) j)) (rnd (P.b1 (i-1) (j-1) (k-1) * g (i-1) (j-1)))
    + cornerF rnd dx.d2 (rnd (P.b2 i j k * g i j)) (rnd (P.b2 (i-1) j k * g (i-1) j)) (rnd (P.b2 i j (k-1) * g i j))
      (rnd (P.b2 (i-1) j (k-1) * g (i-1) j)) (rnd (P.b2 i (j-1) k * g i (j-1))) (rnd (P.b2 (i-1) (j-1) k * g (i-1) (j-1)))
      (rnd (P.b2 i (j-1) (k-1) * g i (j-1))) (rnd (P.b2 (i-1) (j-1) (k-1) * g (i-1) (j-1))))
    + cornerF rnd dx.d3 (rnd (P.b3 i j k * g i j)) (rnd (P.b3 i (j-1) k * g i (j-1))) (rnd (P.b3 (i-1) j k * g (i-1) j))
      (rnd (P.b3 (i-1) (j-1) k * g (i-1) (j-1))) (rnd (P.b3 i j (k-1) * g i j)) (rnd (P.b3 i (j-1) (k-1) * g i (j-1)))
      (rnd (P.b3 (i-1) j (k-1) * g (i-1) j)) (rnd (P.b3 (i-1) (j-1) (k-1) * g (i-1) (j-1))))|

end Nubhlight.FloatCT
