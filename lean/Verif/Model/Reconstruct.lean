import Mathlib.Algebra.Order.Field.Basic
import Mathlib.Algebra.Order.Group.Abs

set_option autoImplicit false

/-!
# Model of core/reconstruction.c and of the Riemann solver / Courant bookkeeping in core/step.c

Reals are replaced by an arbitrary linearly ordered field, so everything runs on `ℚ`. Rounding, NaN and
infinities are not modelled; a division by zero is made explicit where it can happen (`para`).
-/

namespace Nubhlight.Reconstruct

variable {K : Type*} [Field K] [LinearOrder K]

/-- Limiter codes, core/decs.h (`MC`, `VANL`, `MINM`). -/
inductive Lim where
  | mc | vanl | minm
  deriving DecidableEq, Repr

/-- Limiter bodies of `slope_lim`, core/reconstruction.c:18-58, selected by `lim`. -/
def slopeLimBy (lim : Lim) (y1 y2 y3 : K) : K :=
  match lim with
  | .mc =>
    let Dqm := 2 * (y2 - y1)
    let Dqp := 2 * (y3 - y2)
    let Dqc := (1/2) * (y3 - y1)
    if Dqm * Dqp ≤ 0 then 0
    else if |Dqm| < |Dqp| ∧ |Dqm| < |Dqc| then Dqm
    else if |Dqp| < |Dqc| then Dqp
    else Dqc
  | .vanl =>
    let Dqm := y2 - y1
    let Dqp := y3 - y2
    let s := Dqm * Dqp
    if s ≤ 0 then 0 else 2 * s / (Dqm + Dqp)
  | .minm =>
    let Dqm := y2 - y1
    let Dqp := y3 - y2
    if Dqm * Dqp ≤ 0 then 0 else if |Dqm| < |Dqp| then Dqm else Dqp

/-- `slope_lim`, core/reconstruction.c:12-64: the limiter choice is overwritten with `MC` at :16. -/
def slopeLim (y1 y2 y3 : K) : K := slopeLimBy .mc y1 y2 y3

/-- `linear_mc`, core/reconstruction.c:66-89; result `(lout, rout)`. -/
def linearMc (x1 x2 x3 : K) : K × K :=
  let Dqm := 2 * (x2 - x1)
  let Dqp := 2 * (x3 - x2)
  let Dqc := (1/2) * (x3 - x1)
  let s := if Dqm * Dqp ≤ 0 then 0
    else if |Dqm| < |Dqp| ∧ |Dqm| < |Dqc| then Dqm
    else if |Dqp| < |Dqc| then Dqp
    else Dqc
  (x2 - (1/2) * s, x2 + (1/2) * s)

/-- `reconstruct_lr_lin` for one variable and one zone, core/reconstruction.c:511-537; result `(P_l, P_r)`. -/
def linZone (lim : Lim) (P : ℤ → K) (i : ℤ) : K × K :=
  let dq := slopeLimBy lim (P (i-1)) (P i) (P (i+1))
  (P i - (1/2) * dq, P i + (1/2) * dq)

/-- Candidate values, smoothness indicators and weights of `weno`, core/reconstruction.c:392-447. -/
structure WenoParts (K : Type*) where
  v0 : K
  v1 : K
  v2 : K
  w0 : K
  w1 : K
  w2 : K

/-- `eps`, core/reconstruction.c:415. -/
def wenoEps : K := 1 / 10 ^ 26

/-- Right-face half of `weno`, core/reconstruction.c:396-398, 405-411, 417-429. -/
def wenoRight (x1 x2 x3 x4 x5 : K) : WenoParts K :=
  let v0 := (3/8) * x1 - (5/4) * x2 + (15/8) * x3
  let v1 := (-1/8) * x2 + (3/4) * x3 + (3/8) * x4
  let v2 := (3/8) * x3 + (3/4) * x4 - (1/8) * x5
  let b0 := (13/12) * (x1 - 2*x2 + x3)^2 + (1/4) * (x1 - 4*x2 + 3*x3)^2
  let b1 := (13/12) * (x2 - 2*x3 + x4)^2 + (1/4) * (x4 - x2)^2
  let b2 := (13/12) * (x3 - 2*x4 + x5)^2 + (1/4) * (x5 - 4*x4 + 3*x3)^2
  let t0 := (1/16) / ((wenoEps + b0) * (wenoEps + b0))
  let t1 := (5/8) / ((wenoEps + b1) * (wenoEps + b1))
  let t2 := (5/16) / ((wenoEps + b2) * (wenoEps + b2))
  let W := t0 + t1 + t2
  ⟨v0, v1, v2, t0 / W, t1 / W, t2 / W⟩

/-- Left-face half of `weno`, core/reconstruction.c:400-402, 405-411, 431-443. -/
def wenoLeft (x1 x2 x3 x4 x5 : K) : WenoParts K :=
  let v0 := (3/8) * x5 - (5/4) * x4 + (15/8) * x3
  let v1 := (-1/8) * x4 + (3/4) * x3 + (3/8) * x2
  let v2 := (3/8) * x3 + (3/4) * x2 - (1/8) * x1
  let b0 := (13/12) * (x1 - 2*x2 + x3)^2 + (1/4) * (x1 - 4*x2 + 3*x3)^2
  let b1 := (13/12) * (x2 - 2*x3 + x4)^2 + (1/4) * (x4 - x2)^2
  let b2 := (13/12) * (x3 - 2*x4 + x5)^2 + (1/4) * (x5 - 4*x4 + 3*x3)^2
  let t0 := (1/16) / ((wenoEps + b2) * (wenoEps + b2))
  let t1 := (5/8) / ((wenoEps + b1) * (wenoEps + b1))
  let t2 := (5/16) / ((wenoEps + b0) * (wenoEps + b0))
  let W := t0 + t1 + t2
  ⟨v0, v1, v2, t0 / W, t1 / W, t2 / W⟩

/-- core/reconstruction.c:445-446. -/
def WenoParts.value (p : WenoParts K) : K := p.v0 * p.w0 + p.v1 * p.w1 + p.v2 * p.w2

/-- `weno`, core/reconstruction.c:392-447; result `(lout, rout)`. -/
def weno (x1 x2 x3 x4 x5 : K) : K × K :=
  ((wenoLeft x1 x2 x3 x4 x5).value, (wenoRight x1 x2 x3 x4 x5).value)

/-- Macro `MINMOD`, core/reconstruction.c:451. -/
def minmod (a b : K) : K := if a * b > 0 then (if |a| < |b| then a else b) else 0

/-- `Median`, core/reconstruction.c:452-454. -/
def median (a b c : K) : K := a + minmod (b - a) (c - a)

/-- `epsm`, core/reconstruction.c:461. -/
def epsm : K := 1 / 10 ^ 12

/-- Unlimited fifth-order value, core/reconstruction.c:463-464. -/
def mp5Poly (m2 m1 c p1 p2 : K) : K := (2*m2 - 13*m1 + 47*c + 27*p1 - 3*p2) / 60

/-- `mp5_subcalc`, core/reconstruction.c:455-502, with the acceptance tolerance `eps` (the code's `epsm`)
as a parameter. `alpha = 4`. `fmin`/`fmax` of the C library are `min`/`max` (NaN not modelled). -/
def mp5SubEps (eps m2 m1 c p1 p2 : K) : K :=
  let f := mp5Poly m2 m1 c p1 p2
  let fMP := c + minmod (p1 - c) (4 * (c - m1))
  if (f - c) * (f - fMP) ≤ eps then f
  else
    let d2m := m2 + c - 2 * m1
    let d2 := m1 + p1 - 2 * c
    let d2p := c + p2 - 2 * p1
    let dMMp := minmod (minmod (4*d2 - d2p) (4*d2p - d2)) (minmod d2 d2p)
    let dMMm := minmod (minmod (4*d2m - d2) (4*d2 - d2m)) (minmod d2 d2m)
    let fUL := c + 4 * (c - m1)
    let fAV := (1/2) * (c + p1)
    let fMD := fAV - (1/2) * dMMp
    let fLC := (1/2) * (3 * c - m1) + (4/3) * dMMm
    let Fmin := max (min (min c p1) fMD) (min (min c fUL) fLC)
    let Fmax := min (max (max c p1) fMD) (max (max c fUL) fLC)
    median f Fmin Fmax

/-- `mp5_subcalc` with the code's tolerance, core/reconstruction.c:455-502. -/
def mp5Sub (m2 m1 c p1 p2 : K) : K := mp5SubEps epsm m2 m1 c p1 p2

/-- `mp5`, core/reconstruction.c:504-508; result `(lout, rout)`. -/
def mp5 (x1 x2 x3 x4 x5 : K) : K × K := (mp5Sub x5 x4 x3 x2 x1, mp5Sub x1 x2 x3 x4 x5)

/-- Macro `MY_SIGN`, core/decs.h:722: `((x) < 0. ? -1. : 1.)`. -/
def mySign (x : K) : K := if x < 0 then -1 else 1

/-- First limiter of `para` for one face, core/reconstruction.c:300-332; `strict` distinguishes the right
face (`<=`, `>=` at :303) from the left face (`<`, `>` at :320). `am`, `a0` are the zones adjoining the face,
`amm`, `ap` the next ones outward. -/
def paraFace (rightFace : Bool) (amm am a0 ap : K) : K :=
  let h := (7/12) * (am + a0) - (1/12) * (amm + ap)
  let amin := min am a0
  let amax := max am a0
  let out : Bool := if rightFace then decide (h ≤ amin) || decide (h ≥ amax)
             else decide (h < amin) || decide (h > amax)
  if out then
    let D2a := 3 * (am - 2 * h + a0)
    let D2aL := amm - 2 * am + a0
    let D2aR := am - 2 * a0 + ap
    let lim := if D2a * D2aL > 0 ∧ D2a * D2aR > 0 then
        mySign D2a * min (min ((5/4) * |D2aL|) ((5/4) * |D2aR|)) |D2a| else 0
    (1/2) * (am + a0) - (1/3) * lim
  else h

/-- `para`, core/reconstruction.c:284-388; result `(lout, rout)`, `none` when the code divides by zero
(`D2a = 0` at :375-376, giving NaN). -/
def para (x1 x2 x3 x4 x5 : K) : Option (K × K) :=
  let aiph := paraFace true x2 x3 x4 x5
  let aimh := paraFace false x1 x2 x3 x4
  if (x3 - aimh) * (aiph - x3) ≤ 0 ∨ (x4 - x3) * (x3 - x2) ≤ 0 then
    let D2a := 6 * (aimh - 2 * x3 + aiph)
    let D2aL := x1 - 2 * x2 + x3
    let D2aC := x2 - 2 * x3 + x4
    let D2aR := x3 - 2 * x4 + x5
    let lim := if mySign D2a = mySign D2aL ∧ mySign D2a = mySign D2aC ∧ mySign D2a = mySign D2aR then
        mySign D2a * min (min |D2a| ((5/4) * |D2aL|)) (min ((5/4) * |D2aC|) ((5/4) * |D2aR|)) else 0
    if D2a = 0 then none
    else some (x3 + (aimh - x3) * lim / D2a, x3 + (aiph - x3) * lim / D2a)
  else
    let aiph' := if |aiph - x3| ≥ 2 * |aimh - x3| then x3 - 2 * (aimh - x3) else aiph
    let aimh' := if |aimh - x3| ≥ 2 * |aiph' - x3| then x3 - 2 * (aiph' - x3) else aimh
    some (aimh', aiph')

/-- Interface value after the first limiter of `reconstruct_lr_ppm`, core/reconstruction.c:569-593, at the
face between zones `i-1` and `i`. -/
def ppmFace (q : ℤ → K) (i : ℤ) : K :=
  let dph := (7 * (q (i-1) + q i) - (q (i+1) + q (i-2))) / 12
  let d2qc := fun i => q (i-1) - 2 * q i + q (i+1)
  if dph < min (q (i-1)) (q i) ∨ dph > max (q (i-1)) (q i) then
    let qa := 3 * (q (i-1) - 2 * dph + q i)
    let qb := d2qc (i-1)
    let qc := d2qc i
    let qd := if mySign qa = mySign qb ∧ mySign qa = mySign qc then
      mySign qa * min ((5/4) * |qb|) (min ((5/4) * |qc|) |qa|) else 0
    (1/2) * (q (i-1) + q i) - qd / 6
  else dph

/-- `reconstruct_lr_ppm` for one variable and zone, core/reconstruction.c:562-671; result `(P_l, P_r)`. -/
def ppmZone (q : ℤ → K) (i : ℤ) : K × K :=
  let d2qc := fun i => q (i-1) - 2 * q i + q (i+1)
  let fm := ppmFace q i
  let fp := ppmFace q (i+1)
  let dm := q i - fm
  let dp := fp - q i
  let d2qf := 6 * (fm - 2 * q i + fp)
  if dm * dp ≤ 0 ∨ (q (i+1) - q i) * (q i - q (i-1)) ≤ 0 then
    let qa := d2qc (i-1)
    let qb := d2qc i
    let qc := d2qc (i+1)
    let qe := if mySign qa = mySign qb ∧ mySign qa = mySign qc ∧ mySign qa = mySign d2qf then
      mySign d2qf * min (min ((5/4) * |qa|) ((5/4) * |qb|)) (min ((5/4) * |qc|) |d2qf|) else 0
    let ma := max |q (i-1)| |q (i-2)|
    let mb := max |q i| (max |q (i+1)| |q (i+2)|)
    let rho := if |d2qf| ≤ (1 / 10^12) * max ma mb then 0 else qe / d2qf
    if rho ≤ 1 - 1 / 10^12 then (q i - rho * dm, q i + rho * dp) else (fm, fp)
  else
    (if |dm| ≥ 2 * |dp| then q i - 2 * dp else fm, if |dp| ≥ 2 * |dm| then q i + 2 * dm else fp)

/-- Compile-time choice `RECONSTRUCTION`, core/decs.h. -/
inductive Scheme where
  | linear | ppm | weno | mp5 | other
  deriving DecidableEq, Repr

/-- Outcome of `reconstruct` for one zone: values, or the process calls `exit(-1)`. -/
inductive Outcome (K : Type*) where
  | ok (l r : K)
  | exit
  deriving DecidableEq

/-- `reconstruct`, core/reconstruction.c:693-710, for one variable and one zone of the row. -/
def reconstruct (s : Scheme) (P : ℤ → K) (i : ℤ) : Outcome K :=
  match s with
  | .linear => let r := linZone .mc P i; .ok r.1 r.2
  | .ppm => .exit
  | .weno => let r := weno (P (i-2)) (P (i-1)) (P i) (P (i+1)) (P (i+2)); .ok r.1 r.2
  | .mp5 => let r := mp5 (P (i-2)) (P (i-1)) (P i) (P (i+1)) (P (i+2)); .ok r.1 r.2
  | .other => .exit

/-- Largest wave speed at a face from `lr_to_flux`, core/step.c:420-422 (`MY_MAX` is `max`). -/
def ctop (cmaxl cminl cmaxr cminr : K) : K :=
  max |max (max 0 cmaxl) cmaxr| |max (max 0 (-cminl)) (-cminr)|

/-- `lr_to_flux` for one variable, core/step.c:396-427. Inputs are what `get_state`, `primtoflux` and
`mhd_vchar` return for the two sides; result is `(Flux, maxSpeed)`. `small` is `SMALL`. -/
def lrToFlux (small g Fl Fr Ul Ur cmaxl cminl cmaxr cminr : K) : K × K :=
  if g < small then (0, 0)
  else
    let c := ctop cmaxl cminl cmaxr cminr
    ((1/2) * (Fl + Fr - c * (Ur - Ul)), c)

/-- Running maximum of the face speeds in one direction, starting at 0, core/step.c:288,306 (an OpenMP `max`
reduction; sequential here) followed by `mpi_max` (:345), which is the same fold over the ranks. -/
def cmaxOf (speeds : List K) : K := speeds.foldl (fun m c => if c > m then c else m) 0

/-- Combined time step returned by `fluxcalc`, core/step.c:349-353. -/
def combinedDt (cour dx1 dx2 dx3 cmax1 cmax2 cmax3 : K) : K :=
  let ndt1 := cour * dx1 / cmax1
  let ndt2 := cour * dx2 / cmax2
  let ndt3 := cour * dx3 / cmax3
  1 / (1 / ndt1 + 1 / ndt2 + 1 / ndt3)

end Nubhlight.Reconstruct
