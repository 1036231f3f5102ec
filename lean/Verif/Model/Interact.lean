import Mathlib.Algebra.Order.Field.Basic
import Mathlib.Data.List.Basic
import Verif.Model.Emission

set_option autoImplicit false

/-!
# Absorption and scattering of packets

Source: core/interact.c:24-698.

Exact arithmetic. Everything that depends on the position of a packet, the gas or random numbers is an input, one `Draw` per pass through
the inner loop: whether the interpolations succeed, whether the packet is skipped or removed, optical depths, sampled depths, biases, the
momentum at the interaction point, and the outcome of `scatter_superphoton` and of the push of the scattered packet. The diagnostics
(`Jrad`, `Nabs`, `dtau_avg`, ...), `is_tracked` and `has_oscillated` are left out. NaN and infinities are not modelled. With `SCATTERING`
off the code compares with infinite sampled depths (division by a zero bias, lines 160-163, 443); here the channel list is empty then.
-/

namespace Nubhlight.Interact

variable {K : Type*} [Field K] [LinearOrder K] {Z : Type*} [DecidableEq Z]

open Emission (Source Consts leptonSign)

/-- `SMALL`, core/decs.h:87. -/
def SMALL : K := 1 / 10 ^ 20

/-- `SCATT_BIAS_SAFETY`, core/decs.h:101. -/
def SAFETY : K := 1 / 2

/-! ## Biases -/

/-- `conservative_dtau_est` after the opacity is known, core/interact.c:28-35, with `dl` the length in cm. -/
def conservativeDtau (dl alphaInv nu : K) : K := if |alphaInv| ≤ SMALL * SMALL ∨ alphaInv < 0 then 1 else alphaInv / nu * dl

/-- `bound_bias`, core/interact.c:38-47; `n` is `RAD_NUM_TYPES * RAD_SCATT_TYPES`. -/
def boundBias (n dtau bias : K) : K := max (min bias (1 / (dtau * n))) 1

/-- Largest product, core/interact.c:65-71; `none` is minus infinity. -/
def maxProd : List (K × K) → Option K
  | [] => none
  | p :: l => match maxProd l with
    | none => some (p.2 * p.1)
    | some m => some (max (p.2 * p.1) m)

/-- `rebalance_biases`, core/interact.c:61-81, on pairs (optical depth, bias). -/
def rebalance (l : List (K × K)) : List (K × K) :=
  if l.length = 1 then l
  else match maxProd l with
    | none => l
    | some m => l.map fun p => (p.1, if p.1 < SMALL then 1 else m / (p.1 + SMALL))

/-- core/interact.c:97-98 and 111-114. -/
def atLeastOne (b : K) : K := if b < 1 then 1 else b

/-- Sum of products core/interact.c:99-103. -/
def prodSum (l : List (K × K)) : K := (l.map fun p => p.1 * p.2).sum

/-- `bound_all_biases`, core/interact.c:90-116. A zero sum gives an infinite ratio, which does not shrink. -/
def boundAll (l : List (K × K)) : List (K × K) :=
  let l1 := l.map fun p => (p.1, atLeastOne p.2)
  let sum := prodSum l1
  let l2 := if sum ≠ 0 ∧ SAFETY / sum < 1 then l1.map fun p => (p.1, p.2 * (SAFETY / sum)) else l1
  l2.map fun p => (p.1, atLeastOne p.2)

/-! ## One packet -/

/-- A scattering channel: `dtau_scatt`, `xscatt`, `bias_scatt`. -/
structure Chan (K : Type*) where
  dtau : K
  x : K
  bias : K

/-- What happens before optical depths are computed, core/interact.c:180-264: go on, leave the packet alone, or remove it. -/
inductive Pre
  | go
  | leave
  | remove
deriving DecidableEq

/-- Inputs of one pass of the inner loop. `Kin` is `Kcov` at the interaction point, `Kout` the momentum after scattering; `zone` is the
zone after the replacement at lines 485-490, 630-635. -/
structure Draw (K Z : Type*) where
  pre : Pre
  dtauAbs : K
  xabs : K
  chans : List (Chan K)
  intOk : Bool
  zone : Z
  ucon0 : K
  Kin : Fin 4 → K
  scattOk : Bool
  Kout : Fin 4 → K
  pushOk : Bool

/-- Configuration: `t`, `dt`, whether absorption and scattering are compiled in, constants, lepton sign of the packet's type, `t0`. -/
structure Cfg (K : Type*) where
  t : K
  absOn : Bool
  scattOn : Bool
  c : Consts K
  sign : K
  t0 : K

/-- A scattered packet: weight, momentum, `X[2][0]` and `t0` (core/interact.c:587-606). -/
structure Scattered (K : Type*) where
  w : K
  Kcov : Fin 4 → K
  time : K
  t0 : K

/-- What is done with the packet, core/interact.c:445-566. -/
inductive Choice (K : Type*)
  | none
  | abs (frac : K)
  | scatt (ch : Chan K) (frac : K)

/-- Fraction of the path for a channel, core/interact.c:468,560. -/
def scattFrac (ch : Chan K) : K := ch.x / (ch.dtau + SMALL)

/-- Channel with the smallest fraction, core/interact.c:557-565: the first one unless a later one is strictly smaller. -/
def pick (ch : Chan K) : List (Chan K) → Chan K
  | [] => ch
  | d :: l => pick (if scattFrac d < scattFrac ch then d else ch) l

/-- core/interact.c:446. -/
def absPossible (g : Cfg K) (d : Draw K Z) : Prop := d.xabs ≤ d.dtauAbs ∧ g.absOn = true

/-- core/interact.c:447-453: the conjunction over all channels. -/
def scattPossible (g : Cfg K) (d : Draw K Z) : Prop := g.scattOn = true ∧ ∀ ch ∈ d.chans, ch.x ≤ ch.dtau

/-- core/interact.c:464-471. -/
def doAbs (g : Cfg K) (d : Draw K Z) : Prop :=
  absPossible g d ∧ ∀ ch ∈ d.chans, d.xabs / (d.dtauAbs + SMALL) < scattFrac ch

instance (g : Cfg K) (d : Draw K Z) : Decidable (absPossible g d) := inferInstanceAs (Decidable (_ ∧ _))
instance (g : Cfg K) (d : Draw K Z) : Decidable (scattPossible g d) := inferInstanceAs (Decidable (_ ∧ _))
instance (g : Cfg K) (d : Draw K Z) : Decidable (doAbs g d) := inferInstanceAs (Decidable (_ ∧ _))

/-- core/interact.c:445-566. Outer `none`: a division of zero by zero at line 473, or scattering without channels. -/
def choose (g : Cfg K) (d : Draw K Z) : Option (Choice K) :=
  if ¬ (absPossible g d ∨ scattPossible g d) then some .none
  else if doAbs g d then (if d.dtauAbs = 0 then none else some (.abs (d.xabs / d.dtauAbs)))
  else match d.chans with
    | [] => none
    | ch :: l => some (.scatt (pick ch l) (scattFrac (pick ch l)))

/-- An interaction that took place (or failed after weight had been split off), for the account. -/
inductive Ev (K Z : Type*)
  | absorbed (time : K) (zone : Z) (w : K) (Kin : Fin 4 → K)
  | scattered (time : K) (zone : Z) (w : K) (Kin Kout : Fin 4 → K)
  | failedScatter (time : K) (w : K)
  | failedPush (time : K) (zone : Z) (w : K) (Kin Kout : Fin 4 → K)

/-- State while one packet is processed: its weight, `tmin`, packets split off (newest first), sources, interactions (newest first) and the
counters `step_abs`, `step_scatt`, `step_tot`, `step_fail`. -/
structure PS (K Z : Type*) where
  w : K
  tmin : K
  out : List (Scattered K)
  G : Z → Source K
  evs : List (Ev K Z)
  nabs : ℤ
  nscatt : ℤ
  ntot : ℤ
  nfail : ℤ

/-- How a pass of the inner loop ends: `continue`, `break` with the next packet, `break` after removal. -/
inductive Ctl
  | again
  | next
  | removed
deriving DecidableEq

/-- `radG` after absorption, core/interact.c:492-504. -/
def absorbInto (g : Cfg K) (d : Draw K Z) (w : K) (s : Source K) : Source K :=
  { G := fun mu => s.G mu + 1 / (g.c.dt * g.c.d3x) * w * g.c.kphys * d.Kin mu
    ye := s.ye + 1 / (g.c.dt * g.c.d3x) * d.ucon0 * w * g.c.mp * g.sign
    yeEm := s.yeEm }

/-- `radG` after scattering, core/interact.c:637-642. -/
def scatterInto (g : Cfg K) (d : Draw K Z) (w : K) (s : Source K) : Source K :=
  { s with G := fun mu => s.G mu + 1 / (g.c.dt * g.c.d3x) * w * g.c.kphys * (d.Kin mu - d.Kout mu) }

/-- One pass of the inner loop, core/interact.c:177-689. `none`: undefined (see `choose`) or division by a zero bias. -/
def pass (g : Cfg K) (s : PS K Z) (d : Draw K Z) : Option (PS K Z × Ctl) :=
  match d.pre with
  | .leave => some (s, .next)
  | .remove => some ({ s with ntot := s.ntot - 1 }, .removed)
  | .go =>
    (choose g d).bind fun ch => match ch with
      | .none => some (s, .next)
      | .abs frac =>
        if d.intOk then
          let time := s.tmin + frac * (g.t + g.c.dt - s.tmin)
          some ({ s with
            w := 0
            tmin := time
            G := Function.update s.G d.zone (absorbInto g d s.w (s.G d.zone))
            evs := .absorbed time d.zone s.w d.Kin :: s.evs
            nabs := s.nabs + 1 }, .next)
        else some (s, .next)
      | .scatt c frac =>
        if d.intOk then
          if c.bias = 0 then none
          else
            let time := s.tmin + frac * (g.t + g.c.dt - s.tmin)
            let ws := s.w / c.bias
            let wrest := (1 - 1 / c.bias) * s.w
            if d.scattOk then
              let G' := Function.update s.G d.zone (scatterInto g d ws (s.G d.zone))
              if d.pushOk then
                some ({ w := wrest
                        tmin := time
                        out := ⟨ws, d.Kout, time, time⟩ :: s.out
                        G := G'
                        evs := .scattered time d.zone ws d.Kin d.Kout :: s.evs
                        nabs := s.nabs
                        nscatt := s.nscatt + 1
                        ntot := s.ntot + 1
                        nfail := s.nfail }, .again)
              else
                some ({ s with w := wrest, G := G', evs := .failedPush time d.zone ws d.Kin d.Kout :: s.evs, nfail := s.nfail + 1 }, .next)
            else
              some ({ s with w := wrest, evs := .failedScatter time ws :: s.evs, nfail := s.nfail + 1 }, .next)
        else some (s, .next)

/-- `MAX_INTERACTIONS`, core/interact.c:119. -/
def MAX_INTERACTIONS : ℕ := 100

/-- The inner loop, core/interact.c:175-690, with the draws from position `pos` of a stream. It ends by `break` or when the count reaches
the maximum; in the second case `ph` still points to the same packet (`again`). -/
def inner (g : Cfg K) (draws : ℕ → Draw K Z) : ℕ → ℕ → PS K Z → Option (PS K Z × Ctl × ℕ)
  | 0, pos, s => some (s, .again, pos)
  | n + 1, pos, s => (pass g s (draws pos)).bind fun r =>
      match r.2 with
      | .again => inner g draws n (pos + 1) r.1
      | ctl => some (r.1, ctl, pos + 1)

/-- The outer loop, core/interact.c:165-691, as long as it stays on the same packet: skipped when the weight is below `SMALL`, otherwise
`tmin` is set again from `t` and `t0` and the inner loop is entered. `none` also when `fuel` runs out. -/
def outer (g : Cfg K) (draws : ℕ → Draw K Z) : ℕ → ℕ → PS K Z → Option (PS K Z × ℕ)
  | 0, _, _ => none
  | fuel + 1, pos, s =>
    if s.w < SMALL then some (s, pos)
    else (inner g draws MAX_INTERACTIONS pos { s with tmin := max g.t g.t0 }).bind fun r =>
      match r.2.1 with
      | .again => outer g draws fuel r.2.2 r.1
      | _ => some (r.1, r.2.2)

end Nubhlight.Interact
