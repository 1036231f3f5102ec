import Verif.Model.Fluid

set_option autoImplicit false

/-!
# Model of the primitive-variable recovery, core/utop.c

Real numbers replace floating point; a division by zero, which would give an infinity or NaN in C, gives 0 here
(the theorems that rely on values exclude it by hypothesis). Electron and passive scalars are left out. The thread
private cache `extra` of the tabulated equation of state is absorbed in the equation-of-state functions.
-/

namespace Nubhlight.Fluid

/-- Equation-of-state entry points used by `Utoprim` and the compile-time switches it tests. `presW rho0 w gamma` is
`EOS_pressure_rho0_w`, `presU rho0 u` is `EOS_pressure_rho0_u`, `cs rho u` the sound speed check of the tabulated
equation of state (core/utop.c:195-201). `checksU` is `EOS == EOS_TYPE_GAMMA || GAMMA_FALLBACK` (:164), `table` is
`EOS == EOS_TYPE_TABLE` (:195). -/
structure Eos where
  presW : ℝ → ℝ → ℝ → ℝ
  presU : ℝ → ℝ → ℝ
  cs : ℝ → ℝ → ℝ
  checksU : Bool
  table : Bool

/-- Gamma-law equation of state: `EOS_Gamma_pressure_rho0_u`, `EOS_Gamma_pressure_rho0_w`, core/eos_gamma.c:12-18. -/
noncomputable def gammaEos (Γ : ℝ) : Eos where
  presW rho0 w _ := (w - rho0) * (Γ - 1) / Γ
  presU _ u := (Γ - 1) * u
  cs _ _ := 0
  checksU := true
  table := false

/-- Scalars and vectors derived from the conserved variables, core/utop.c:47-92. -/
structure Cons where
  D : ℝ
  Bcon : V4
  Bsq : ℝ
  QdB : ℝ
  Qtsq : ℝ
  Qtcon : V4
  Ep : ℝ

/-- core/utop.c:47-92. -/
noncomputable def consOf (U : Prim) (G : Geom) : Cons :=
  let lapse := G.alpha
  let detg := G.g
  let D := U 0 * lapse / detg
  let Bcon : V4 := ![0, U 5 * lapse / detg, U 6 * lapse / detg, U 7 * lapse / detg]
  let Qcov : V4 := ![(U 1 - U 0) * lapse / detg, U 2 * lapse / detg, U 3 * lapse / detg, U 4 * lapse / detg]
  let Bcov := lower Bcon G.gcov
  let Bsq := dot Bcon Bcov
  let Qcon := raise Qcov G.gcon
  let QdB := dot Qcov Bcon
  let ncov : V4 := ![-lapse, 0, 0, 0]
  let ncon := raise ncov G.gcon
  let Qdotn := dot Qcon ncov
  let Qsq := dot Qcov Qcon
  { D := D, Bcon := Bcon, Bsq := Bsq, QdB := QdB, Qtsq := Qsq + Qdotn * Qdotn,
    Qtcon := fun i => Qcon i + ncon i * Qdotn, Ep := -Qdotn - D }

/-- `utsq` of `gamma_func`, core/utop.c:229-236. -/
noncomputable def utsqOf (c : Cons) (Wp : ℝ) : ℝ :=
  let QdBsq := c.QdB * c.QdB
  let W := c.D + Wp
  let W2 := W * W
  let WB := W + c.Bsq;
  let num := (W + WB) * QdBsq + W2 * c.Qtsq;
  (-num) / (QdBsq * (W + WB) + W2 * (c.Qtsq - WB * WB))

/-- `gamma_func`, core/utop.c:225-245: the value returned. -/
noncomputable def gammaFunc (c : Cons) (Wp : ℝ) : ℝ := Real.sqrt (1 + |utsqOf c Wp|)

/-- `gamma_func` sets `*eflag = 2` in this case, core/utop.c:240-242. -/
def gammaBad (c : Cons) (Wp : ℝ) : Prop := utsqOf c Wp < 0 ∨ utsqOf c Wp > 10 ^ 3 * GAMMAMAX * GAMMAMAX

/-- `err_eqn`, core/utop.c:206-223. -/
noncomputable def errEqn (E : Eos) (c : Cons) (Wp : ℝ) : ℝ :=
  let W := Wp + c.D
  let gamma := gammaFunc c Wp
  let w := W / (gamma * gamma)
  let rho0 := c.D / gamma
  let p := E.presW rho0 w gamma;
  (-c.Ep) + Wp - p + 1 / 2 * c.Bsq + 1 / 2 * (c.Bsq * c.Qtsq - c.QdB * c.QdB) / ((c.Bsq + W) * (c.Bsq + W))

/-- `Wp_func`, core/utop.c:247-287: the guess, or `none` when it sets `*eflag = 2`. -/
noncomputable def wpFunc (E : Eos) (P : Prim) (G : Geom) : Option ℝ :=
  let ut : V4 := ![0, P 2, P 3, P 4]
  let s0 := dot ut (lower ut G.gcov)
  let s := if s0 < 0 ∧ |s0| < 1 / 10 ^ 13 then |s0| else s0
  if s < 0 ∨ s > 10 ^ 3 * GAMMAMAX * GAMMAMAX then none
  else
    let gamma := Real.sqrt (1 + |s|)
    some ((P 0 + P 1 + E.presU (P 0) (P 1)) * gamma * gamma - P 0 * gamma)

/-- `ERRTOL`, core/utop.c:12. -/
noncomputable def ERRTOL : ℝ := 1 / 10 ^ 10

/-- Step limiter `MY_MAX(MY_MIN(dW, 2.0*Wp), -0.5*Wp)`, core/utop.c:121,133. -/
noncomputable def limitStep (dW Wp : ℝ) : ℝ := max (min dW (2 * Wp)) (-(1 / 2) * Wp)

/-- The Halley step, core/utop.c:104-121: the new `Wp`. -/
noncomputable def halley (err : ℝ → ℝ) (Wp : ℝ) : ℝ :=
  let Wpm := (1 - 1 / 10 ^ 5) * Wp
  let h := Wp - Wpm
  let Wpp := Wp + h
  let dedW := (err Wpp - err Wpm) / (Wpp - Wpm)
  let dedW2 := (err Wpp - 2 * err Wp + err Wpm) / (h * h)
  let f := 1 / 2 * err Wp * dedW2 / (dedW * dedW)
  let dW := -(err Wp) / dedW / (1 - min (max (-(3 / 10)) f) (3 / 10))
  Wp + limitStep dW Wp

/-- The secant loop, core/utop.c:125-138, with `fuel` iterations left of `ITERMAX = 8`. Returns the final `Wp` and
whether the loop ended with `iter == ITERMAX` (reported as failure, :141). The loop index is `8 - fuel`. -/
noncomputable def secant (err : ℝ → ℝ) : ℕ → ℝ → ℝ → ℝ → ℝ → ℝ × Bool
  | 0, Wp, _, _, _ => (Wp, true)
  | fuel + 1, Wp, e, Wp1, err1 =>
    if |e / Wp| > ERRTOL then
      let dW := (Wp1 - Wp) * e / (e - err1)
      let Wp' := Wp + limitStep dW Wp
      if |dW / Wp'| < ERRTOL then (Wp', false)
      else secant err fuel Wp' (err Wp') Wp e
    else (Wp, false)

/-- `ITERMAX`, core/utop.c:13. -/
def ITERMAX : ℕ := 8

/-- Whole root search from the guess, core/utop.c:102-143. -/
noncomputable def rootSearch (err : ℝ → ℝ) (Wp : ℝ) : ℝ × Bool :=
  let Wp' := halley err Wp
  secant err ITERMAX Wp' (err Wp') Wp (err Wp)

/-- Primitives written on success, core/utop.c:145-175. -/
noncomputable def recovered (E : Eos) (c : Cons) (Wp : ℝ) : ℝ × ℝ × V4 :=
  let gamma := gammaFunc c Wp
  let rho0 := c.D / gamma
  let W := Wp + c.D
  let w := W / (gamma * gamma)
  let P := E.presW rho0 w gamma
  let u := w - (rho0 + P)
  (rho0, u, fun i => (gamma / (W + c.Bsq)) * (c.Qtcon i + c.QdB * c.Bcon i / W))

/-- The primitive array after the magnetic update, core/utop.c:37-39. -/
noncomputable def withB (U P : Prim) (G : Geom) : Prim := fun i => if 5 ≤ i.val then U i / G.g else P i

/-- Primitive array after a full write, core/utop.c:169-175. -/
noncomputable def withAll (U P : Prim) (G : Geom) (r : ℝ × ℝ × V4) : Prim :=
  ![r.1, r.2.1, r.2.2 1, r.2.2 2, r.2.2 3, withB U P G 5, withB U P G 6, withB U P G 7]

open Classical in
/-- `Utoprim`, core/utop.c:16-204: return code and new primitive array. The unreachable `gamma < 1` exit (:147-150)
is not represented (`gamma ≥ 1` always, see `gammaFunc_ge_one`). The local `eflag` set by `gamma_func` and `err_eqn`
after the guess (:108-122,137,146) is never read again, so it does not appear. -/
noncomputable def utoprim (E : Eos) (U : Prim) (G : Geom) (P : Prim) : ℤ × Prim :=
  let PB := withB U P G
  if U 0 ≤ 0 then (-100, PB)
  else
    let c := consOf U G
    match wpFunc E PB G with
    | none => (2, PB)
    | some Wp0 =>
      let r := rootSearch (errEqn E c) Wp0
      if r.2 = true then (1, PB)
      else
        let rec' := recovered E c r.1
        if rec'.1 < 0 then (5, PB)
        else if E.checksU = true ∧ rec'.2.1 < 0 then (5, PB)
        else
          let P' := withAll U P G rec'
          if E.table = true ∧ (E.cs (P' 0) (P' 1) > 1 ∨ E.cs (P' 0) (P' 1) < 0) then (6, P')
          else (0, P')

end Nubhlight.Fluid
