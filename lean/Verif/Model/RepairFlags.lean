import Verif.Model.FixupUtoprim

set_option autoImplicit false

/-!
# Failure flags from one repair to the next

`fixup_utoprim` turns the recovery flags round in place (core/fixup.c:269-274) and does not turn them back. The next
recovery writes the flags of active zones only; those of ghost zones are what the boundary pass copied. The model follows
the flags of all ranks through any number of repairs (two a step, three with radiation: core/step.c:54, 96, 110). The rare
mark `-333` of `fixup1zone` is not modelled (see `FixupUtoprim`).
-/

namespace Nubhlight.RepairFlags

open FixupUtoprim

variable {K : Type*} [Field K] [LinearOrder K] [IsStrictOrderedRing K] {R : Type*}

/-- Sizes of the ranks' grids and the zone each ghost zone is copied from by `bound_prim`, core/bounds.c:13-222 with
core/mpi.c:216-274: `none` where the boundary is the problem's own (`BC_PROB`, core/bounds.c:37-38, 73-74: the flag is left
alone). Which zone that is, is C18 and C56. -/
structure Layout (R : Type*) where
  size : R → Sizes
  src : R → Zone → Option (R × Zone)

/-- Active zones: the range of `ZLOOP`, core/decs.h. -/
def active (n : Sizes) (z : Zone) : Bool :=
  (NG ≤ z.1 && z.1 < NG + n.N1) && (NG ≤ z.2.1 && z.2.1 < NG + n.N2) && (NG ≤ z.2.2 && z.2.2 < NG + n.N3)

/-- What a repair is given: results of the recovery in the active zones, the fluid variables and the zone fix-up. -/
structure Call (R K : Type*) where
  res : R → Zone → ℤ
  P : R → Zone → Fin 5 → K
  fix : R → Zone → (Fin 5 → K) → (Fin 5 → K)

/-- The recovery stores its flag in active zones, core/step.c:221 and 268. -/
def recovered (L : Layout R) (res pf : R → Zone → ℤ) : R → Zone → ℤ := fun r z => if active (L.size r) z then res r z else pf r z

/-- `fixup_utoprim` of a rank: values and flags left behind. The loop never needs more passes than allowed here (C17). -/
def repair (L : Layout R) (c : Call R K) (pf : R → Zone → ℤ) (r : R) : Grid K :=
  let n := L.size r
  match fixupUtoprim n (c.fix r) (n.N1 * n.N2 * n.N3 + 2) (c.P r) (pf r) with
  | some (g, _) => g
  | none => ⟨c.P r, fun _ => false⟩

/-- The flags `fixup_utoprim` leaves: 1 good, 0 bad, core/fixup.c:273, 280-288, 348. -/
def left (g : R → Grid K) : R → Zone → ℤ := fun r z => if (g r).good z then 1 else 0

/-- `bound_prim` copies flags along with the variables. -/
def bound (L : Layout R) (pf : R → Zone → ℤ) : R → Zone → ℤ := fun r z =>
  if active (L.size r) z then pf r z
  else match L.src r z with
    | some w => pf w.1 w.2
    | none => pf r z

/-- Flags after the listed repairs, the latest first; 0 everywhere at the start (core/coord.c:561). -/
def flags (L : Layout R) : List (Call R K) → R → Zone → ℤ
  | [] => fun _ _ => 0
  | c :: cs => bound L (left fun r => repair L c (recovered L c.res (flags L cs)) r)

/-- Flags a repair `c` finds after the repairs `cs`. -/
def found (L : Layout R) (cs : List (Call R K)) (c : Call R K) : R → Zone → ℤ := recovered L c.res (flags L cs)

/-- Values a repair `c` stores after the repairs `cs`. -/
def result (L : Layout R) (cs : List (Call R K)) (c : Call R K) (r : R) (z : Zone) : Fin 5 → K :=
  (repair L c (found L cs c) r).P z

end Nubhlight.RepairFlags
