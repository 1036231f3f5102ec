import Verif.Common

set_option autoImplicit false

/-!
# Model of `fixup_utoprim`, core/fixup.c:264-359

Zones are integer triples in the code's array numbering (active zones `NG ≤ i < N1+NG`, ...). Only the five fluid
variables (`ip < B1`) are touched by the routine. `fixup1zone` is a parameter acting on the fluid variables of a
zone; its rare side effect of writing `pflag = -333` (core/fixup.c:248, only if the spatial metric is not positive)
is not modelled. The scan is sequential (its OpenMP pragma is commented out).
-/

namespace Nubhlight.FixupUtoprim

variable {K : Type*} [Field K] [LinearOrder K] [IsStrictOrderedRing K]

/-- A zone index. -/
abbrev Zone := ℤ × ℤ × ℤ

/-- Number of ghost zones, core/decs.h:65. -/
def NG : ℤ := 3

/-- Grid sizes of the rank. -/
structure Sizes where
  N1 : ℕ
  N2 : ℕ
  N3 : ℕ

/-- Fluid primitives and the (already flipped) flags: `good = true` is `pflag == 1`. -/
structure Grid (K : Type*) where
  P : Zone → Fin 5 → K
  good : Zone → Bool

/-- Flipping the flags and clearing the eight corner blocks, core/fixup.c:269-291: from `pflag` (0 = recovered) to
good marks. -/
def corner (n : Sizes) (z : Zone) : Bool :=
  let c (N : ℕ) (i : ℤ) : Bool := (0 ≤ i && i < NG) || (N + NG ≤ i && i < N + 2 * NG)
  c n.N1 z.1 && c n.N2 z.2.1 && c n.N3 z.2.2

/-- See `corner`. -/
def prepare (n : Sizes) (pflag : Zone → ℤ) : Zone → Bool := fun z => pflag z = 0 && !corner n z

/-- The 27 offsets `l, m, n ∈ {-1, 0, 1}`, core/fixup.c:310-312. -/
def offsets : List Zone :=
  [-1, 0, 1].flatMap fun l => [-1, 0, 1].flatMap fun m => [-1, 0, 1].map fun k => (l, m, k)

/-- `1. / (abs(l) + abs(m) + abs(n) + 1)`, core/fixup.c:313. -/
def weight (o : Zone) : K := 1 / ((|o.1| + |o.2.1| + |o.2.2| + 1 : ℤ) : K)

/-- Weight times flag, core/fixup.c:313-314. -/
def wgood (g : Grid K) (z o : Zone) : K := weight o * (if g.good (z + o) then 1 else 0)

/-- `wsum`, core/fixup.c:308-319. -/
def wsum (g : Grid K) (z : Zone) : K := (offsets.map (wgood g z)).sum

/-- `sum[ip]`, core/fixup.c:309-319. -/
def vsum (g : Grid K) (z : Zone) (ip : Fin 5) : K := (offsets.map fun o => wgood g z o * g.P (z + o) ip).sum

/-- Loop state: grid, `fail_consec`, `bad`. -/
structure Acc (K : Type*) where
  grid : Grid K
  fc : ℕ
  bad : ℕ

/-- Body of the zone loop, core/fixup.c:307-351; `tmp` is the snapshot `Pv_tmp`, `pflag_tmp` taken at the start of the
pass. (The averaging over all neighbours of a hopeless zone only writes local variables and `Pv_tmp` velocities of
that zone, which are never used because its flag is 0.) -/
def zoneStep (fix : Zone → (Fin 5 → K) → (Fin 5 → K)) (tmp : Grid K) (a : Acc K) (z : Zone) : Acc K :=
  if tmp.good z = false then
    if wsum tmp z < 1 / 10 ^ 10 then { a with fc := a.fc + 1, bad := a.bad + 1 }
    else
      { grid :=
          { P := Function.update a.grid.P z (fix z fun ip => vsum tmp z ip / wsum tmp z)
            good := Function.update a.grid.good z true }
        fc := 0
        bad := a.bad }
  else a

/-- Active zones in scan order (`ZSLOOP(0, N1-1, ...)`), core/fixup.c:306. -/
def zones (n : Sizes) : List Zone :=
  (List.range n.N1).flatMap fun i : ℕ => (List.range n.N2).flatMap fun j : ℕ => (List.range n.N3).map fun k : ℕ =>
    ((i : ℤ) + NG, (j : ℤ) + NG, (k : ℤ) + NG)

/-- One pass of the `do` body, core/fixup.c:296-352. -/
def pass (n : Sizes) (fix : Zone → (Fin 5 → K) → (Fin 5 → K)) (g : Grid K) (fc : ℕ) : Acc K :=
  (zones n).foldl (zoneStep fix g) ⟨g, fc, 0⟩

/-- The `do ... while` loop, core/fixup.c:294-353, with `fuel` passes allowed; `none` means the loop is still running. -/
def loop (n : Sizes) (fix : Zone → (Fin 5 → K) → (Fin 5 → K)) : ℕ → Grid K → ℕ → Option (Acc K)
  | 0, _, _ => none
  | fuel + 1, g, fc =>
    let a := pass n fix g fc
    if 0 < a.bad ∧ a.fc < n.N1 * n.N2 * n.N3 then loop n fix fuel a.grid a.fc else some a

/-- `fixup_utoprim` as a whole: `none` if the loop does not stop within `fuel` passes; the flag tells whether the
global `fixup` is applied (core/fixup.c:355-356). -/
def fixupUtoprim (n : Sizes) (fix : Zone → (Fin 5 → K) → (Fin 5 → K)) (fuel : ℕ) (P : Zone → Fin 5 → K)
    (pflag : Zone → ℤ) : Option (Grid K × Bool) :=
  (loop n fix fuel ⟨P, prepare n pflag⟩ 0).map fun a => (a.grid, a.fc == n.N1 * n.N2 * n.N3)

end Nubhlight.FixupUtoprim
