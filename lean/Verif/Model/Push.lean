import Mathlib.Algebra.Order.Field.Basic
import Mathlib.Algebra.Order.Ring.Abs
import Mathlib.Data.Fin.Basic
import Mathlib.Algebra.BigOperators.Fin

set_option autoImplicit false

/-!
# Geodesic push of superphotons

core/push_superphotons.c (`push`, `get_X_source`, `get_K_source`, `push_X_K`, `push_superphoton`), `is_null`, `get_X_K_interp`,
`to_be_pushed` and `get_dtpush` of core/rad_utils.c. Numbers are exact elements of an ordered field; the inverse metric is a parameter
`gcon`, with `none` where it does not exist. Division by zero (an infinity or NaN in the code) is `none`, except in the norm test, where
a comparison with infinity or NaN is false. The update of tracers (`push_tracers`) is a parameter.
-/

namespace Nubhlight.Push

variable {K : Type*} [Field K] [LinearOrder K]

/-- Four-vectors. -/
abbrev V (K : Type*) := Fin 4 → K

/-- Inverse metric at a point: `set_gcov` then `gcon_func`. -/
abbrev GconF (K : Type*) := V K → Option (Fin 4 → Fin 4 → K)

/-- `X`, `Kcov`, `Kcon`. -/
structure St (K : Type*) where
  X : V K
  Kcov : V K
  Kcon : V K

/-- `raise`, core/metric.c:79-88. -/
def raise (g : Fin 4 → Fin 4 → K) (v : V K) : V K := fun mu => g mu 0 * v 0 + g mu 1 * v 1 + g mu 2 * v 2 + g mu 3 * v 3

/-- `dot`, core/decs.h:725. -/
def dot (u v : V K) : K := u 0 * v 0 + u 1 * v 1 + u 2 * v 2 + u 3 * v 3

/-- `get_X_source`, core/push_superphotons.c:206-210. -/
def xSource (Kcon : V K) : Option (V K) := if Kcon 0 = 0 then none else some fun mu => Kcon mu / Kcon 0

/-- `DELTA`, core/push_superphotons.c:212. -/
def DELTA : K := 1 / 10 ^ 6

/-- Displacement in one coordinate, core/push_superphotons.c:232-237. -/
def shift (X : V K) (mu : Fin 4) (s : K) : V K := Function.update X mu (X mu + s)

/-- The double sum core/push_superphotons.c:243-248. -/
def gradSum (gp gm : Fin 4 → Fin 4 → K) (den : K) (Kcov : V K) : K :=
  ∑ nu : Fin 4, ∑ kap : Fin 4, Kcov nu * Kcov kap * ((gp nu kap - gm nu kap) / den)

/-- One component of `get_K_source` for a coordinate that is not skipped, core/push_superphotons.c:226-250. -/
def kSource1 (gcon : GconF K) (X Kcov Kcon : V K) (mu : Fin 4) : Option K :=
  (gcon (shift X mu (-DELTA))).bind fun gm => (gcon (shift X mu DELTA)).bind fun gp =>
    if Kcon 0 = 0 then none
    else some (gradSum gp gm (shift X mu DELTA mu - shift X mu (-DELTA) mu) Kcov * (-1 / (2 * Kcon 0)))

/-- `get_K_source`, core/push_superphotons.c:213-253; `kill` is the array `killing`. -/
def kSource (kill : Fin 4 → Bool) (gcon : GconF K) (X Kcov Kcon : V K) : Option (V K) :=
  (if kill 0 then some 0 else kSource1 gcon X Kcov Kcon 0).bind fun s0 =>
  (if kill 1 then some 0 else kSource1 gcon X Kcov Kcon 1).bind fun s1 =>
  (if kill 2 then some 0 else kSource1 gcon X Kcov Kcon 2).bind fun s2 =>
  (if kill 3 then some 0 else kSource1 gcon X Kcov Kcon 3).bind fun s3 =>
  some fun mu => match mu with
    | 0 => s0
    | 1 => s1
    | 2 => s2
    | 3 => s3

/-- `killing` for `METRIC == MINKOWSKI`, core/push_superphotons.c:217. -/
def killMinkowski : Fin 4 → Bool := fun _ => true

/-- `killing` for `METRIC == MKS`, core/push_superphotons.c:219. -/
def killMKS : Fin 4 → Bool := fun mu => match mu with
  | 0 => true
  | 1 => false
  | 2 => false
  | 3 => true

/-- `push`, core/push_superphotons.c:150-204. -/
def push (kill : Fin 4 → Bool) (gcon : GconF K) (dt : K) (s : St K) : Option (St K) :=
  (gcon s.X).bind fun g1 =>
  let k1 := raise g1 s.Kcov
  (xSource k1).bind fun c1 => (kSource kill gcon s.X s.Kcov k1).bind fun d1 =>
  let Xt : V K := fun mu => s.X mu + dt * c1 mu
  let Kt : V K := fun mu => s.Kcov mu + dt * d1 mu
  (gcon Xt).bind fun g2 =>
  let k2 := raise g2 Kt
  (xSource k2).bind fun c2 => (kSource kill gcon Xt Kt k2).bind fun d2 =>
  let X' : V K := Fin.cases (s.X 0 + dt) fun i => s.X i.succ + 1 / 2 * dt * (c1 i.succ + c2 i.succ)
  let K' : V K := Fin.cases (s.Kcov 0) fun i => s.Kcov i.succ + 1 / 2 * dt * (d1 i.succ + d2 i.succ)
  (gcon X').map fun g3 => ⟨X', K', raise g3 K'⟩

/-- `is_null`, core/rad_utils.c:370-384. -/
def isNull (tol : K) (Kcov Kcon : V K) (K0 prev : K) : Bool :=
  K0 ≠ 0 && |dot Kcov Kcon - prev| / K0 ^ 2 < tol

/-- `MAX_SUBDIV`, core/push_superphotons.c:18. -/
def MAX_SUBDIV : ℕ := 10

/-- `n` sub-steps, core/push_superphotons.c:41-59. -/
def substeps (sub : St K → Option (St K)) : ℕ → St K → Option (St K)
  | 0, s => some s
  | n + 1, s => (sub s).bind (substeps sub n)

/-- The `do ... while` loop of `push_X_K`, core/push_superphotons.c:34-66, started with `nsubdiv = n`: `attempt` is the integration with
`2^nsubdiv` sub-steps from the initial state, `good` the test. Returns the last state and `nsubdiv` after the loop. -/
def subdivLoop {S : Type*} (attempt : ℕ → Option S) (good : S → Bool) : ℕ → ℕ → Option (S × ℕ)
  | 0, _ => none
  | fuel + 1, n => (attempt n).bind fun s =>
      if good s = false ∧ n + 1 < MAX_SUBDIV then subdivLoop attempt good fuel (n + 1) else some (s, n + 1)

/-- Result of `push_X_K`: the state and `PUSH_SUCCESS` or `PUSH_FAIL`, core/push_superphotons.c:68-74. -/
def subdivide {S : Type*} (attempt : ℕ → Option S) (good : S → Bool) : Option (S × Bool) :=
  (subdivLoop attempt good MAX_SUBDIV 0).map fun r => (r.1, r.2 ≠ MAX_SUBDIV)

/-- `push_X_K`, core/push_superphotons.c:20-75: `step dt` is `push` or, for tracers, `push_tracers`. -/
def pushXK (step : K → St K → Option (St K)) (tracer : Bool) (tol prev dt : K) (s : St K) : Option (St K × Bool) :=
  subdivide (fun n => substeps (step (dt / 2 ^ n)) (2 ^ n) s) fun s' => tracer || isNull tol s'.Kcov s'.Kcon (s.Kcov 0) prev

/-- A photon's history and norm, core/decs.h:577-581; `s 2` is the newest state. -/
structure Ph (K : Type*) where
  s : Fin 3 → St K
  prev : K

/-- `push_superphoton`, core/push_superphotons.c:77-92. -/
def pushPh (step : K → St K → Option (St K)) (tracer : Bool) (tol dt : K) (p : Ph K) : Option (Ph K × Bool) :=
  (pushXK step tracer tol p.prev dt (p.s 2)).map fun r =>
    (⟨fun n => match n with
        | 0 => p.s 1
        | 1 => p.s 2
        | 2 => r.1, dot r.1.Kcov r.1.Kcon⟩, r.2)

/-- `to_be_pushed`, core/rad_utils.c:533-545. -/
def toBePushed (tracer : Bool) (t dt : K) (p : Ph K) : Bool := tracer || (p.s 2).X 0 < t + dt

/-- `get_dtpush`, core/rad_utils.c:548-555; `light` is `cour * dt_light` of the photon's zone. -/
def dtPush (tracer : Bool) (light dt : K) : K := if tracer then dt else max light dt

/-! ## Interpolation -/

/-- The constant `1.e-50` of core/rad_utils.c:443, 451. -/
def TINY : K := 1 / 10 ^ 50

/-- Linear interpolation core/rad_utils.c:478-484. -/
def lerp (t : K) (a b : St K) : Option (St K) :=
  if b.X 0 - a.X 0 = 0 then none
  else
    let fac := (t - a.X 0) / (b.X 0 - a.X 0)
    some ⟨fun mu => fac * b.X mu + (1 - fac) * a.X mu, fun mu => fac * b.Kcov mu + (1 - fac) * a.Kcov mu,
      fun mu => fac * b.Kcon mu + (1 - fac) * a.Kcon mu⟩

/-- Outcome of `get_X_K_interp`. -/
inductive Interp (K : Type*)
  | ok (s : St K)
  | fail
  | exit

/-- The interval used, core/rad_utils.c:443-476: its first state, or `none` for "BAD INTERPOLATION". -/
def interval (t : K) (p : Ph K) : Option (Fin 3 × Fin 3) :=
  if t < (1 - TINY) * (p.s 1).X 0 then some (0, 1) else if t ≤ (1 + TINY) * (p.s 2).X 0 then some (1, 2) else none

/-- `get_X_K_interp`, core/rad_utils.c:429-530. `none` is a division by zero in the interpolation or an undefined push. If `Kcov[0]` is
zero after interpolation the test 500 is false or undefined; it is `none` here. -/
def interp (step : K → St K → Option (St K)) (tracer : Bool) (tol t : K) (p : Ph K) : Option (Interp K) :=
  if t = (p.s 2).X 0 then some (.ok (p.s 2))
  else match interval t p with
    | none => some .exit
    | some (i, j) => (lerp t (p.s i) (p.s j)).bind fun s =>
        if s.Kcov 0 = 0 then none
        else if |(dot s.Kcon s.Kcov - dot (p.s i).Kcov (p.s i).Kcon) / (s.Kcov 0 * s.Kcov 0)| > 100 * tol then
          (pushXK step tracer tol (dot (p.s i).Kcov (p.s i).Kcon) (t - (p.s i).X 0) (p.s i)).map fun r =>
            if r.2 then .ok r.1 else .fail
        else some (.ok s)

end Nubhlight.Push
