import Verif.Model.Rounding
import Mathlib.Data.List.Basic
import Mathlib.Algebra.Order.Field.Basic
import Mathlib.Algebra.Order.Group.Abs

set_option autoImplicit false

/-! # Writing the log `diag.out` and reading it for analysis

Modelled: which quantity stands in which column (core/diag.c:267-316), which column the reader takes for which quantity (`load_diag`, script/analysis/hdf5_to_dict.py:497-626, with the default
arguments), and what the reader does to the rows of a log that was continued by a restart. -/

namespace Nubhlight.LogRead

/-- The build options that decide on columns. `radiation` is 0, 1 (`RADTYPE_LIGHT`) or 2 (`RADTYPE_NEUTRINOS`), core/decs.h:163-164. -/
structure Cfg where
  radiation : ℕ
  electrons : Bool
  tracers : Bool
  oscillations : Bool
  localAngles : Bool

/-- Quantities in the log, under the names the reader gives them. -/
inductive Q
  | t | rmed | pp | e | adiabat | urep | mdot | edot | ldot | mass | egas | Phi | phi | jet | divbmax
  | made | abs | scatt | lost | recd | tot | sent | rcvd
  | madeAll | absAll | scattAll | lostAll | recAll | totAll | sentAll | rcvdAll
  | imbalance | tuneEmiss | tuneScatt | erad | lum | eff
  | numSuper | lumSuper
  | leptonTot | dleptonTot | dleptonPerc
  | tracerTot | nonTracerTot
  | lumEht | mdotEh | edotEh | ldotEh
  | update | fluxcalc | fixup | bound | diag | out | make | push | interact | micro | all
  | electron | oscillation
  deriving DecidableEq, Repr

/-- The columns in the order of the calls of `fprintf`, core/diag.c:267-316. -/
def written (c : Cfg) : List Q :=
  [.t, .rmed, .pp, .e, .adiabat, .urep] ++ [.mdot, .edot, .ldot] ++ [.mass, .egas] ++ [.Phi, .phi, .jet] ++ [.divbmax] ++
  (if c.radiation ≠ 0 then
    [.made, .abs, .scatt, .lost, .recd, .tot, .sent, .rcvd] ++ [.madeAll, .absAll, .scattAll, .lostAll, .recAll, .totAll, .sentAll, .rcvdAll] ++ [.imbalance] ++
    [.tuneEmiss, .tuneScatt] ++ [.erad, .lum, .eff] ++
    (if c.electrons then [.numSuper, .lumSuper] else []) ++
    (if c.radiation = 2 then [.leptonTot, .dleptonTot, .dleptonPerc] else []) ++
    (if c.tracers then [.tracerTot, .nonTracerTot] else [])
  else []) ++
  [.lumEht] ++ [.mdotEh, .edotEh, .ldotEh] ++ [.update, .fluxcalc, .fixup, .bound, .diag, .out, .make, .push, .interact, .micro, .all] ++
  (if c.electrons then [.electron] else []) ++
  (if c.oscillations || c.localAngles then [.oscillation] else [])

/-- What the header of the first dump says, script/analysis/hdf5_to_dict.py:97-120 from core/io.c:755,769-772,881-886: the two options on angular distributions are written only in a run with
radiation and are zero otherwise. -/
def header (c : Cfg) : Cfg :=
  { c with oscillations := decide (c.radiation ≠ 0) && c.oscillations, localAngles := decide (c.radiation ≠ 0) && c.localAngles }

/-- The columns the reader takes, script/analysis/hdf5_to_dict.py:514-592: names with column numbers, for the header `h`. The variable `nbase` of the source is the number carried through. -/
def columns (h : Cfg) : List (Q × ℕ) :=
  let base := [(Q.t, 0), (.rmed, 1), (.pp, 2), (.e, 3), (.adiabat, 4), (.urep, 5), (.mdot, 6), (.edot, 7), (.ldot, 8), (.mass, 9), (.egas, 10), (.Phi, 11), (.phi, 12), (.jet, 13),
    (.divbmax, 14)]
  let n0 := 14
  let rad := if h.radiation ≠ 0 then
      [(Q.made, n0 + 1), (.abs, n0 + 2), (.scatt, n0 + 3), (.lost, n0 + 4), (.recd, n0 + 5), (.tot, n0 + 6), (.sent, n0 + 7), (.rcvd, n0 + 8),
        (.madeAll, n0 + 9), (.absAll, n0 + 10), (.scattAll, n0 + 11), (.lostAll, n0 + 12), (.recAll, n0 + 13), (.totAll, n0 + 14), (.sentAll, n0 + 15), (.rcvdAll, n0 + 16),
        (.imbalance, n0 + 17), (.tuneEmiss, n0 + 18), (.tuneScatt, n0 + 19), (.erad, n0 + 20), (.lum, n0 + 21), (.eff, n0 + 22)]
    else []
  let n1 := if h.radiation ≠ 0 then n0 + 22 else n0
  let el := if h.radiation ≠ 0 ∧ h.electrons then [(Q.numSuper, n1 + 1), (.lumSuper, n1 + 2)] else []
  let n2 := if h.radiation ≠ 0 ∧ h.electrons then n1 + 2 else n1
  let lep := if h.radiation ≠ 0 ∧ h.radiation = 2 then [(Q.leptonTot, n2 + 1), (.dleptonTot, n2 + 2), (.dleptonPerc, n2 + 3)] else []
  let n3 := if h.radiation ≠ 0 ∧ h.radiation = 2 then n2 + 3 else n2
  let tr := if h.radiation ≠ 0 ∧ h.tracers then [(Q.tracerTot, n3 + 1), (.nonTracerTot, n3 + 2)] else []
  let n4 := if h.radiation ≠ 0 ∧ h.tracers then n3 + 2 else n3
  let eh := [(Q.lumEht, n4 + 1), (.mdotEh, n4 + 2), (.edotEh, n4 + 3), (.ldotEh, n4 + 4)]
  let n5 := n4 + 4
  let tm := [(Q.update, n5 + 1), (.fluxcalc, n5 + 2), (.fixup, n5 + 3), (.bound, n5 + 4), (.diag, n5 + 5), (.out, n5 + 6), (.make, n5 + 7), (.push, n5 + 8), (.interact, n5 + 9),
    (.micro, n5 + 10), (.all, n5 + 11)]
  let n6 := n5 + 11
  let te := if h.electrons then [(Q.electron, n6 + 1)] else []
  let n7 := if h.electrons then n6 + 1 else n6
  let os := if h.oscillations || h.localAngles then [(Q.oscillation, n7 + 1)] else []
  base ++ rad ++ el ++ lep ++ tr ++ eh ++ tm ++ te ++ os

/-- Reading one row: a column that is not there is an error (`none`). -/
def readRow {α : Type*} (h : Cfg) (row : List α) : Option (List (Q × α)) :=
  (columns h).mapM fun p => (row[p.2]?).map fun v => (p.1, v)

/-! ## Rows -/

variable {K : Type*} [Field K] [LinearOrder K] [IsStrictOrderedRing K] {D : Type*}

/-- A row: the time, the accretion rate and everything else. The reader treats all arrays alike, so that rows stay together. -/
structure Row (K D : Type*) where
  t : K
  mdot : K
  rest : D

/-- The rows whose time is larger than that of the row before (`p`) in the same list. -/
def after (p : Row K D) : List (Row K D) → List (Row K D)
  | [] => []
  | r :: l => if 0 < r.t - p.t then r :: after r l else after r l

/-- `restart_mask`, script/analysis/hdf5_to_dict.py:595-598: the first row, and those later than the row before. -/
def purge : List (Row K D) → List (Row K D)
  | [] => []
  | r :: l => r :: after r l

/-- The loop from the end, script/analysis/hdf5_to_dict.py:606-614, on the reversed list: `t` is the time of the row kept last. The rows kept are returned in the order of the file (`unique`). -/
def back (t : K) : List (Row K D) → List (Row K D)
  | [] => []
  | r :: l => if r.t ≤ t then back r.t l ++ [r] else back t l

/-- `SMALL`, script/analysis/hdf5_to_dict.py:30. -/
def small : K := 1 / 10 ^ 40

/-- Lines 617-621: a row without accretion after one with accretion becomes a copy of it. `p` is the row before as read, `p'` as it stands; the test uses the rates as read. -/
def fill (p p' : Row K D) : List (Row K D) → List (Row K D)
  | [] => []
  | r :: l =>
    let r' := if |r.mdot| < small ∧ small < |p.mdot| then p' else r
    r' :: fill r r' l

/-- Lines 594-614. The last entry of an empty array is an error. -/
def restarts (l : List (Row K D)) : Option (List (Row K D)) :=
  match (purge (purge l)).reverse with
  | [] => none
  | r :: rs => some (back r.t rs ++ [r])

/-- Lines 594-621. A file with fewer than two rows is an error: `loadtxt` then gives an array without rows, or one with a number for each column, which has no length. -/
def load (l : List (Row K D)) : Option (List (Row K D)) :=
  if l.length < 2 then none
  else (restarts l).map fun l' => match l' with
    | [] => []
    | r :: rs => r :: fill r r rs

/-- The time printed with `%10.5g` (core/diag.c:267): five digits. `e` is the exponent of the leading digit. -/
def Printed (x y : ℚ) : Prop :=
  (x = 0 ∧ y = 0) ∨ ∃ e : ℤ, (10 : ℚ) ^ e ≤ x ∧ x < (10 : ℚ) ^ (e + 1) ∧ y = Rounding.roundEven (x / (10 : ℚ) ^ (e - 4)) * (10 : ℚ) ^ (e - 4)

end Nubhlight.LogRead
