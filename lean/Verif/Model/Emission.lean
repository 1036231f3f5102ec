import Mathlib.Algebra.Order.Field.Basic
import Mathlib.Data.Finset.Basic
import Mathlib.Data.List.Basic
import Mathlib.Algebra.Order.Floor.Defs
import Mathlib.Algebra.BigOperators.Group.List.Basic

set_option autoImplicit false

/-!
# Emission of packets

Source: core/make_superphotons.c:48-280 (`make_superphotons`, `sample_photon`), core/coord.c:41 (the time set by `coord`),
core/step.c:231-280 (`apply_rad_force`), core/rad_utils.c:754-760 (`get_lepton_sign`), core/diag.c:515-545 (lepton counting).

Exact arithmetic over an ordered field. The random draws (frequency, angles) and the emissivity are inputs: what an emission event
receives is its energy, direction cosines and weight. Zone indices are any type. The work is modelled on one thread and one rank; the
updates of `radG` are additions under `omp atomic`, so in exact arithmetic their order does not matter. The history slots `X[0]`, `X[1]`
(zero), `is_tracked`, `nscatt`, and the diagnostics `Jrad`, `Nem`, `Nem_phys` are left out.
-/

namespace Nubhlight.Emission

variable {K : Type*} [Field K] [LinearOrder K] {Z : Type*} [DecidableEq Z]

/-- Neutrino types core/decs.h:168-171: `NU_ELECTRON` 0, `ANTINU_ELECTRON` 1, `NU_HEAVY` 2, `ANTINU_HEAVY` 3; `TYPE_TRACER` -1
(core/decs.h:166). `get_lepton_sign`, core/rad_utils.c:754-760. -/
def leptonSign (type : ℤ) : ℤ := if type = 0 then 1 else if type = 1 then -1 else 0

/-- `nu_is_heavy`, core/rad_utils.c:761-763. -/
def nuIsHeavy (type : ℤ) : Bool := type = 2 || type = 3

/-- The fields of `struct of_photon` (core/decs.h:574-593) set by `sample_photon` that are modelled. `time` is `X[2][0]`, `zone` is
`origin[1..3]`. -/
structure Packet (K Z : Type*) where
  time : K
  t0 : K
  Kcov : Fin 4 → K
  Kcon : Fin 4 → K
  w : K
  type : ℤ
  zone : Z

/-- `radG[i][j][k]`: four-force and the two lepton components (core/decs.h:182-184). -/
structure Source (K : Type*) where
  G : Fin 4 → K
  ye : K
  yeEm : K

/-- Constants of a run and a step: `dt`, `dx[1]*dx[2]*dx[3]`, `kphys_to_num`, `MP/M_unit`. -/
structure Consts (K : Type*) where
  dt : K
  d3x : K
  kphys : K
  mp : K

/-- Inputs of one call of `sample_photon`, after its random draws: zone, `Econ`, `Ecov`, `u^0 = gamma/alpha` of the zone, type, `E`,
direction cosines, `weight`. -/
structure Event (K Z : Type*) where
  zone : Z
  Econ : Fin 4 → Fin 4 → K
  Ecov : Fin 4 → Fin 4 → K
  ucon0 : K
  type : ℤ
  E : K
  cth : K
  sth : K
  cphi : K
  sphi : K
  weight : K

/-- `tetrad_to_coord`, core/tetrads.c:26-34. -/
def tetradToCoord (Econ : Fin 4 → Fin 4 → K) (v : Fin 4 → K) : Fin 4 → K := fun mu =>
  Econ 0 mu * v 0 + Econ 1 mu * v 1 + Econ 2 mu * v 2 + Econ 3 mu * v 3

/-- Direction of the first (`false`) and second (`true`) packet of a pair, core/make_superphotons.c:167-171: `(cth, sth, cphi, sphi)`. -/
def dir (e : Event K Z) (second : Bool) : K × K × K × K :=
  if second then (-e.cth, e.sth, -e.cphi, -e.sphi) else (e.cth, e.sth, e.cphi, e.sphi)

/-- Covariant tetrad wave vector, core/make_superphotons.c:195-198. -/
def kTetrad (e : Event K Z) (second : Bool) : Fin 4 → K
  | 0 => -e.E
  | 1 => e.E * (dir e second).1
  | 2 => e.E * (dir e second).2.2.1 * (dir e second).2.1
  | 3 => e.E * (dir e second).2.2.2 * (dir e second).2.1

/-- Contravariant tetrad wave vector, core/make_superphotons.c:202. -/
def kTetradCon (e : Event K Z) (second : Bool) : Fin 4 → K
  | 0 => kTetrad e second 0 * -1
  | 1 => kTetrad e second 1
  | 2 => kTetrad e second 2
  | 3 => kTetrad e second 3

/-- One packet of `sample_photon`, core/make_superphotons.c:180-235. Line 187 sets `X[2][0]` to `t + dt/2`; line 188 calls `coord`, which
sets it to `t` (core/coord.c:41). -/
def packet (c : Consts K) (t : K) (e : Event K Z) (second : Bool) : Packet K Z :=
  let Kcov := tetradToCoord e.Ecov (kTetrad e second)
  { time := t
    t0 := t + c.dt / 2
    Kcov := Kcov
    Kcon := tetradToCoord e.Econ (kTetradCon e second)
    w := if Kcov 0 > 0 then 0 else 1 / 2 * e.weight
    type := e.type
    zone := e.zone }

/-- Update of the source terms of the packet's zone, core/make_superphotons.c:237-260. -/
def takeFrom (c : Consts K) (ucon0 : K) (p : Packet K Z) (s : Source K) : Source K :=
  { G := fun mu => s.G mu - 1 / (c.dt * c.d3x) * c.kphys * p.w * p.Kcov mu
    ye := s.ye - 1 / (c.dt * c.d3x) * ucon0 * p.w * c.mp * (leptonSign p.type : K)
    yeEm := s.yeEm - 1 / (c.dt * c.d3x) * ucon0 * p.w * c.mp * (leptonSign p.type : K) }

/-- State of a thread: its list, `radG`, and the number of packets made. -/
structure St (K Z : Type*) where
  list : List (Packet K Z)
  radG : Z → Source K
  made : ℕ
  lost : ℕ

/-- One iteration of the loop core/make_superphotons.c:81-98. With `kill` (`KILL_ALL_PACKETS`) the pair is freed. -/
def emitPair (kill : Bool) (c : Consts K) (t : K) (s : St K Z) (e : Event K Z) : St K Z :=
  let p := packet c t e false
  let q := packet c t e true
  { list := if kill then s.list else p :: q :: s.list
    radG := Function.update s.radG e.zone (takeFrom c e.ucon0 q (takeFrom c e.ucon0 p (s.radG e.zone)))
    made := s.made + 2
    lost := if kill then s.lost + 2 else s.lost }

/-- `make_superphotons` core/make_superphotons.c:48-113 after the draws: all pairs of all zones and types in order. The counter is
increased by `2*nz` per zone and type in the code, which is two per pair. -/
def make (kill : Bool) (c : Consts K) (t : K) (s : St K Z) (es : List (Event K Z)) : St K Z := es.foldl (emitPair kill c t) s

/-- Number of pairs for an expected number `d`, core/make_superphotons.c:69-71: the cast truncates towards zero. -/
def pairs [FloorRing K] (d r : K) : ℤ :=
  let nz : ℤ := if 0 ≤ d then ⌊d⌋ else ⌈d⌉
  if d - nz > r then nz + 1 else nz

/-- The conserved variables changed by `apply_rad_force`, core/step.c:252-266: momentum components `U[1..4]`, `U[YE]`, `U[YE_EM]`. -/
structure Cons (K : Type*) where
  U : Fin 4 → K
  ye : K
  yeEm : K

/-- core/step.c:252-266. -/
def applyForce (Dt : K) (s : Source K) (u : Cons K) : Cons K :=
  { U := fun mu => u.U mu + Dt * s.G mu
    ye := u.ye + Dt * s.ye
    yeEm := u.yeEm + Dt * s.yeEm }

end Nubhlight.Emission
