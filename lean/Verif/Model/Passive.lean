import Verif.Model.Reconstruct
import Verif.Model.Conserve
import Verif.Model.Inflow

set_option autoImplicit false

/-! # Model of passive scalars (composition)

Fluxes and conserved variables (core/phys.c:22-23, 43-54), faces (core/step.c:295-341, 396-427 by `Reconstruct`), `fix_flux` (core/bounds.c:292-340),
update (core/step.c:206-224 by `Conserve.updZone`), recovery (core/utop.c:41-45, 152-192), floors (core/passive.c:13-35, core/eos_stellar_collapse.c:563-579,
1500-1508, as called in core/fixup.c:229-231) and boundaries, for a step without radiation on one rank (core/step.c:48-62, 90-104).

Everything else about the gas (density, velocity, speeds, whether recovery fails) is arbitrary input at each call. -/

namespace Nubhlight.Passive

open Reconstruct

variable {K : Type*} [Field K] [LinearOrder K] [IsStrictOrderedRing K]

/-- `PASSTYPE_INTRINSIC` (per volume) and `PASSTYPE_NUMBER` (per mass), core/decs.h:141-142. -/
inductive PassType where
  | intrinsic
  | number
  deriving DecidableEq

/-- Flux of a passive scalar in a direction (`u` is that component of the four-velocity; the time component gives the conserved variable),
core/phys.c:23, 45-51, 54. -/
def passFlux (ty : PassType) (g rho phi u : K) : K :=
  match ty with
  | .number => rho * u * phi * g
  | .intrinsic => phi * u * g

/-- Flux of mass, core/phys.c:23, 54. -/
def rhoFlux (g rho u : K) : K := rho * u * g

/-- Recovery, core/utop.c:184-191: `Urho` and `U` are conserved, `gamma` is the Lorentz factor found. -/
def recoverPass (ty : PassType) (lapse g gamma Urho U : K) : K :=
  match ty with
  | .number => U / Urho
  | .intrinsic => lapse * U / (gamma * g)

/-! ## Floors -/

/-- `catch_ye`, core/eos_stellar_collapse.c:1500-1508. -/
def catchYe (lo hi tol ye : K) : K := if ye < lo then lo else if ye ≥ hi then hi - tol / 100 else ye

/-- `do_atm_fixup`, core/eos_stellar_collapse.c:573-579. -/
def catchAtm (a : K) : K :=
  let a := if a < 0 then 0 else a
  if a > 1 then 1 else a

/-- A fix-up of a passive variable: the variable it changes and how. -/
abbrev Fix (K : Type*) := ℕ × (K → K)

/-- `init_passives`, core/passive.c:25-35 (`YE` is variable 8, core/decs.h:139, 144-147): the entry of passive variable `e`. -/
def initPassives (table mks : Bool) (lo hi tol : K) (e : ℕ) : Option (Fix K) :=
  if table then
    if e = 0 then some (8, catchYe lo hi tol)
    else if e = 1 then some (9, catchYe lo hi tol)
    else if e = 2 ∧ mks then some (10, catchAtm)
    else none
  else none

/-- `fixup_passive`, core/passive.c:13-23: `n` is `NVAR_PASSIVE`. -/
def fixupPassive (types : ℕ → PassType) (fixes : ℕ → Option (Fix K)) (n : ℕ) (pre pv : ℕ → K) : ℕ → K :=
  (List.range n).foldl (fun pv e =>
    let pv := if types e = .number then Function.update pv (8 + e) (pre (8 + e)) else pv
    match fixes e with
    | some f => Function.update pv f.1 (f.2 (pv f.1))
    | none => pv) pv

/-! ## A call of `advance` -/

/-- What `lr_to_flux` knows about the gas on one side of a face. -/
structure Side (K : Type*) where
  rho : K
  ut : K
  ui : K
  cmax : K
  cmin : K

/-- A face. -/
structure Face (K : Type*) where
  l : Side K
  r : Side K
  g : K

/-- A scalar on all zones. -/
abbrev Field3 (K : Type*) := ℤ → ℤ → ℤ → K

/-- A build. -/
structure Build (K : Type*) where
  dims : FluxCT.Dims
  dx1 : K
  dx2 : K
  dx3 : K
  small : K
  scheme : Scheme
  mks : Bool
  guards : Inflow.Guards

/-- The gas in one call of `advance`: faces in the three directions, at zone centres density, velocity and geometry before, and of recovery the
Lorentz factor and whether it fails without setting passive variables for other reasons than density. -/
structure Gas (K : Type*) where
  f1 : ℤ → ℤ → ℤ → Face K
  f2 : ℤ → ℤ → ℤ → Face K
  f3 : ℤ → ℤ → ℤ → Face K
  rho : Field3 K
  ut : Field3 K
  g : Field3 K
  lapse : Field3 K
  gamma : Field3 K
  fails : ℤ → ℤ → ℤ → Bool
  Dt : K

/-- Flux of mass through a face, `lr_to_flux` for `RHO`, core/step.c:396-427. -/
def massFace (small : K) (f : Face K) : K :=
  (lrToFlux small f.g (rhoFlux f.g f.l.rho f.l.ui) (rhoFlux f.g f.r.rho f.r.ui) (rhoFlux f.g f.l.rho f.l.ut) (rhoFlux f.g f.r.rho f.r.ut)
    f.l.cmax f.l.cmin f.r.cmax f.r.cmin).1

/-- Flux of a passive scalar through a face, the same. -/
def passFace (small : K) (ty : PassType) (f : Face K) (pl pr : K) : K :=
  (lrToFlux small f.g (passFlux ty f.g f.l.rho pl f.l.ui) (passFlux ty f.g f.r.rho pr f.r.ui) (passFlux ty f.g f.l.rho pl f.l.ut)
    (passFlux ty f.g f.r.rho pr f.r.ut) f.l.cmax f.l.cmin f.r.cmax f.r.cmin).1

/-- The two values at face `i` of a row, `P_r[i-1]` and `P_l[i]`, core/step.c:302-305. `none`: the program stops. -/
def faceVals (s : Scheme) (row : ℤ → K) (i : ℤ) : Option (K × K) :=
  match reconstruct s row (i - 1), reconstruct s row i with
  | .ok _ r, .ok l _ => some (r, l)
  | _, _ => none

/-- `F1[..][RHO]` after `fix_flux`, core/bounds.c:293-313. -/
def mass1 (b : Build K) (x : Gas K) (i j k : ℤ) : K :=
  let F := massFace b.small (x.f1 i j k)
  let F := if b.mks ∧ b.guards.x1l ∧ i = 0 then min F 0 else F
  if b.mks ∧ b.guards.x1r ∧ i = b.dims.n1 then max F 0 else F

/-- Whether `fix_flux` sets the fluxes in the second direction to zero, core/bounds.c:315-339. -/
def atPole (b : Build K) (j : ℤ) : Bool := b.mks && ((b.guards.x2l && decide (j = 0)) || (b.guards.x2r && decide (j = b.dims.n2)))

/-- `F2[..][RHO]`, `F3[..][RHO]` as used in the update. -/
def mass2 (b : Build K) (x : Gas K) (i j k : ℤ) : K := if atPole b j then 0 else massFace b.small (x.f2 i j k)
def mass3 (b : Build K) (x : Gas K) (i j k : ℤ) : K := massFace b.small (x.f3 i j k)

/-- Fluxes of a passive scalar as used in the update; `fix_flux` does not change those in the first direction. -/
def pass1 (b : Build K) (ty : PassType) (x : Gas K) (pb : Field3 K) (i j k : ℤ) : Option K :=
  (faceVals b.scheme (fun m => pb m j k) i).map fun v => passFace b.small ty (x.f1 i j k) v.1 v.2
def pass2 (b : Build K) (ty : PassType) (x : Gas K) (pb : Field3 K) (i j k : ℤ) : Option K :=
  (faceVals b.scheme (fun m => pb i m k) j).map fun v => if atPole b j then 0 else passFace b.small ty (x.f2 i j k) v.1 v.2
def pass3 (b : Build K) (ty : PassType) (x : Gas K) (pb : Field3 K) (i j k : ℤ) : Option K :=
  (faceVals b.scheme (fun m => pb i j m) k).map fun v => passFace b.small ty (x.f3 i j k) v.1 v.2

/-- Conserved mass after the update, core/step.c:212-219 (no source: core/phys.c:107-116). -/
def newMass (b : Build K) (x : Gas K) (i j k : ℤ) : K :=
  Conserve.updZone x.Dt b.dx1 b.dx2 b.dx3 (fun i j k => rhoFlux (x.g i j k) (x.rho i j k) (x.ut i j k)) (mass1 b x) (mass2 b x) (mass3 b x)
    (fun _ _ _ => 0) i j k

/-- Conserved passive scalar after the update. -/
def newPass (b : Build K) (ty : PassType) (x : Gas K) (pi pb : Field3 K) (i j k : ℤ) : Option K :=
  (pass1 b ty x pb i j k).bind fun a1 => (pass1 b ty x pb (i + 1) j k).bind fun a2 =>
  (pass2 b ty x pb i j k).bind fun b1 => (pass2 b ty x pb i (j + 1) k).bind fun b2 =>
  (pass3 b ty x pb i j k).bind fun c1 => (pass3 b ty x pb i j (k + 1)).bind fun c2 =>
    some (passFlux ty (x.g i j k) (x.rho i j k) (pi i j k) (x.ut i j k) +
      x.Dt * (-(a2 - a1) / b.dx1 - (b2 - b1) / b.dx2 - (c2 - c1) / b.dx3 + 0))

/-- `advance` in an active zone, core/step.c:182-224. A recovery that fails leaves what was there (line 183). -/
def advanceZone (b : Build K) (ty : PassType) (x : Gas K) (pi pb : Field3 K) (i j k : ℤ) : Option K :=
  (newPass b ty x pi pb i j k).map fun U =>
    if newMass b x i j k ≤ 0 ∨ x.fails i j k then pi i j k
    else recoverPass ty (x.lapse i j k) (x.g i j k) (x.gamma i j k) (newMass b x i j k) U

/-! ## Steps -/

/-- Active zones. -/
def active (d : FluxCT.Dims) (i j k : ℤ) : Bool :=
  decide (0 ≤ i) && decide (i < d.n1) && decide (0 ≤ j) && decide (j < d.n2) && decide (0 ≤ k) && decide (k < d.n3)

/-- Where the boundary pass copies a zone from (passive variables are copied unchanged, core/bounds.c:60-222; C18). Boundaries set by the problem
are left out. -/
abbrev Source := ℤ → ℤ → ℤ → ℤ × ℤ × ℤ

/-- One of the two halves of a step, core/step.c:49-62, 91-104: advance, floors (for variables per mass they give `fx` of the recovered value,
`fixup_passive`), boundaries. -/
def half (b : Build K) (ty : PassType) (fx : K → K) (src : Source) (x : Gas K) (pi pb : Field3 K) (out : Field3 K) : Prop :=
  (∀ i j k, active b.dims i j k → ∃ v, advanceZone b ty x pi pb i j k = some v ∧ out i j k = fx v) ∧
  (∀ i j k, ¬ active b.dims i j k → out i j k = out (src i j k).1 (src i j k).2.1 (src i j k).2.2)

/-- A step. -/
def step (b : Build K) (ty : PassType) (fx : K → K) (src : Source) (x : Gas K × Gas K) (p q : Field3 K) : Prop :=
  ∃ h, half b ty fx src x.1 p p h ∧ half b ty fx src x.2 p h q

/-- A run: the gas of each step is arbitrary. -/
inductive Run (b : Build K) (ty : PassType) (fx : K → K) (src : Source) : List (Gas K × Gas K) → Field3 K → Field3 K → Prop where
  | nil (p : Field3 K) : Run b ty fx src [] p p
  | cons (x : Gas K × Gas K) (xs : List (Gas K × Gas K)) (p q r : Field3 K) (h : step b ty fx src x p q) (t : Run b ty fx src xs q r) :
      Run b ty fx src (x :: xs) p r

end Nubhlight.Passive
