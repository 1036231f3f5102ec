import Verif.Model.Interact
import Verif.Model.RadSync

set_option autoImplicit false

/-!
# Radiation part of a step on all ranks

core/step.c:67-73, 108, 117-120: emission, motion, interactions, reduction of the four-force over ghost zones, its application to the
gas and its reset. Put together from `Emission`, `Interact` and `RadSync`.

One list of packets per rank (the additions to `radG` are atomic, C125). Conserved variables of a zone stand for its primitive
variables (recovery after `apply_rad_force` is C14, C76). Storage indices as in `World`. What depends on positions, the gas or random
numbers is an input. The sorting of packets at the end (C38, C39) moves them between ranks and is left to the next step. `NRADCOMP`
components beyond the four-force do not enter the momentum account.
-/

namespace Nubhlight.RadStep

open Bounds RadSync Emission Interact

variable {K : Type*} [Field K] [LinearOrder K]

/-- Storage index of a zone on its rank. -/
abbrev Zone := ℤ × ℤ × ℤ

/-- Weight and momentum of a packet. -/
structure Pkt (K : Type*) where
  w : K
  Kcov : Fin 4 → K

/-- Inputs of a rank in a step: emissions; for the `n`-th packet taken from the list, its sign and `t0`, what moving does to its
momentum (core/step.c:69 for old packets, core/interact.c:663 for scattered ones) and the draws of `interact`; bounds on the loops. -/
structure Inputs (K : Type*) where
  es : List (Event K Zone)
  sign : ℕ → K
  t0 : ℕ → K
  move : ℕ → (Fin 4 → K) → Fin 4 → K
  draws : ℕ → Pkt K → ℕ → Draw K Zone
  fuelInner : ℕ
  fuelList : ℕ

/-- Settings of a step: time, whether absorption and scattering are compiled in, constants. -/
structure Settings (K : Type*) where
  t : K
  absOn : Bool
  scattOn : Bool
  c : Consts K

/-- A packet just emitted or scattered. -/
def ofEmitted (p : Packet K Zone) : Pkt K := ⟨p.w, p.Kcov⟩

/-- See `ofEmitted`. -/
def ofScattered (p : Scattered K) : Pkt K := ⟨p.w, p.Kcov⟩

/-- `interact` over a list, core/interact.c:165-692: scattered packets are put behind the packet they come from (lines 683-684) and
taken next. `none`: undefined (see `Interact.pass`) or loops longer than allowed. -/
def work (g : Settings K) (d : Inputs K) : ℕ → ℕ → (Zone → Source K) → List (Pkt K) → Option ((Zone → Source K) × List (Pkt K))
  | _, _, G, [] => some (G, [])
  | 0, _, _, _ :: _ => none
  | fuel + 1, n, G, p :: l =>
    let q : Pkt K := ⟨p.w, d.move n p.Kcov⟩
    (outer ⟨g.t, g.absOn, g.scattOn, g.c, d.sign n, d.t0 n⟩ (d.draws n q) d.fuelInner 0 ⟨p.w, g.t, [], G, [], 0, 0, 0, 0⟩).bind fun r =>
      (work g d fuel (n + 1) r.1.G (r.1.out.map ofScattered ++ l)).map fun x => (x.1, ⟨r.1.w, q.Kcov⟩ :: x.2)

/-- Emission and interactions of a rank, core/step.c:67-71. New packets come first in the list (core/make_superphotons.c:94-95). -/
def rankRad (g : Settings K) (d : Inputs K) (G : Zone → Source K) (l : List (Pkt K)) : Option ((Zone → Source K) × List (Pkt K)) :=
  let s := make false g.c g.t ⟨[], G, 0, 0⟩ d.es
  work g d d.fuelList 0 s.radG (s.list.map ofEmitted ++ l)

/-- Conserved variables of all zones, four-force of all zones, and packets of all ranks. -/
structure State (K : Type*) where
  U : World (Cons K)
  G : World (Source K)
  pk : ℤ → ℤ → ℤ → List (Pkt K)

/-- `sync_radG`, core/mpi.c:285-314, component by component. -/
def syncAll (d1 d2 d3 : Dim) (W : World (Source K)) : World (Source K) := fun c1 c2 c3 i j k =>
  ⟨fun mu => syncAdd d1 d2 d3 (fun c1 c2 c3 i j k => (W c1 c2 c3 i j k).G mu) c1 c2 c3 i j k,
   syncAdd d1 d2 d3 (fun c1 c2 c3 i j k => (W c1 c2 c3 i j k).ye) c1 c2 c3 i j k,
   syncAdd d1 d2 d3 (fun c1 c2 c3 i j k => (W c1 c2 c3 i j k).yeEm) c1 c2 c3 i j k⟩

/-- `apply_rad_force` on all ranks, core/step.c:231-280. -/
def applyAll (d1 d2 d3 : Dim) (Dt : K) (W : World (Source K)) (U : World (Cons K)) : World (Cons K) := fun c1 c2 c3 i j k =>
  if act d1 i ∧ act d2 j ∧ act d3 k then applyForce Dt (W c1 c2 c3 i j k) (U c1 c2 c3 i j k) else U c1 c2 c3 i j k

/-- The radiation part of a step on all ranks: every rank gets through emission and interactions, then the force is summed over
copies (core/bounds.c:429), applied (core/step.c:108) and reset (core/step.c:117-120). -/
def radStep (d1 d2 d3 : Dim) (g : Settings K) (d : ℤ → ℤ → ℤ → Inputs K) (s s' : State K) : Prop :=
  ∃ G1 : World (Source K),
    (∀ c1 c2 c3, (0 ≤ c1 ∧ c1 < d1.C) → (0 ≤ c2 ∧ c2 < d2.C) → (0 ≤ c3 ∧ c3 < d3.C) →
      rankRad g (d c1 c2 c3) (fun z => s.G c1 c2 c3 z.1 z.2.1 z.2.2) (s.pk c1 c2 c3) =
        some (fun z => G1 c1 c2 c3 z.1 z.2.1 z.2.2, s'.pk c1 c2 c3)) ∧
    s'.U = applyAll d1 d2 d3 g.c.dt (syncAll d1 d2 d3 G1) s.U ∧
    s'.G = fun _ _ _ _ _ _ => ⟨fun _ => 0, 0, 0⟩

end Nubhlight.RadStep
