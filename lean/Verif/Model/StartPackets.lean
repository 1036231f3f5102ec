import Mathlib.Algebra.Order.Floor.Ring
import Mathlib.Algebra.Order.Floor.Semiring
import Mathlib.Data.Real.Basic
import Mathlib.Analysis.SpecialFunctions.Pow.Real
import Mathlib.Analysis.SpecialFunctions.Trigonometric.Basic

set_option autoImplicit false

/-! # Packets that problems place at the start

prob/binning/problem.c:27-135, prob/multiscatt/problem.c:28-109, prob/comptonization/problem.c:17-96, prob/oscillations/problem.c:44-201.

Arithmetic is exact; `malloc` does not clear memory (core/util.c:19-32), so a field that is not assigned is `none`. -/

namespace Nubhlight.StartPackets

/-- A packet as a problem leaves it, `struct of_photon`, core/decs.h:574-593, without the links, the position and the origin, which all problems assign. -/
structure Packet where
  Kcov : Fin 4 → ℝ
  Kcon : Fin 4 → ℝ
  w : ℝ
  type : Option ℕ
  nscatt : Option ℕ
  t0 : Option ℝ
  tracked : Option Bool
  oscillated : Option Bool

/-- The assignments of wave vectors shared by the problems in flat space, prob/binning/problem.c:115-119, prob/multiscatt/problem.c:88-92, prob/oscillations/problem.c:180-185: both from the same numbers, the time component of one turned round. -/
def waves (E : ℝ) (n : Fin 3 → ℝ) : (Fin 4 → ℝ) × (Fin 4 → ℝ) :=
  let k : Fin 4 → ℝ := ![-E, E * n 0, E * n 1, E * n 2]
  (k, Function.update k 0 (k 0 * -1))

/-- Directions of prob/binning/problem.c:81-113. `direction` as there: 0 isotropic (96-106), 1 to 3 along an axis (107-109), 4 for the linear anisotropy (81-95); `none` stops the run (110-113). The first and last kind have the same formula, with another distribution of `cth`. -/
noncomputable def binningDir (direction : ℕ) (cth phi : ℝ) : Option (Fin 3 → ℝ) :=
  if direction = 0 ∨ direction = 4 then some ![Real.cos phi * Real.sqrt |1 - cth * cth|, Real.sin phi * Real.sqrt |1 - cth * cth|, cth]
  else if direction = 1 then some ![1, 0, 0]
  else if direction = 2 then some ![0, 1, 0]
  else if direction = 3 then some ![0, 0, 1]
  else none

/-- A packet of prob/binning/problem.c:63-131. The type is not assigned. -/
noncomputable def binningPacket (E : ℝ) (n : Fin 3 → ℝ) (w : ℝ) : Packet :=
  { Kcov := (waves E n).1, Kcon := (waves E n).2, w := w, type := none, nscatt := some 0, t0 := some 0, tracked := none, oscillated := none }

/-- A packet of prob/multiscatt/problem.c:73-105, which moves along one axis. -/
noncomputable def multiscattPacket (E : ℝ) (axis : Fin 3) (w : ℝ) : Packet :=
  { Kcov := (waves E fun i => if i = axis then 1 else 0).1, Kcon := (waves E fun i => if i = axis then 1 else 0).2, w := w, type := some 0, nscatt := some 0, t0 := some 0, tracked := none, oscillated := none }

/-- Choice of the type, prob/oscillations/problem.c:144-153, by a number `x` between 0 and 1: the first type at which the sum of the fractions reaches `x`; `none` if it never does, and nothing is assigned. -/
noncomputable def sampleType : List ℝ → ℝ → ℝ → ℕ → Option ℕ
  | [], _, _, _ => none
  | f :: l, x, compare, i => if x ≤ compare + f then some i else sampleType l x (compare + f) (i + 1)

/-- `distmu`, prob/oscillations/problem.c:44-52. -/
noncomputable def distmu (type : ℕ) (x : ℝ) : ℝ :=
  if type = 0 then 1 - 3 / 4 * x * x else if type = 1 then 1 / 4 + 3 / 4 * x * x else 1

/-- A pair of random numbers is accepted in the rejection sampling of prob/oscillations/problem.c:157-161: the first gives the cosine, the second is compared. -/
def accepted (type : ℕ) (u v : ℝ) : Prop := ¬ v * 1 ≥ distmu type (2 * u - 1)

/-- Direction, prob/oscillations/problem.c:164-177. -/
noncomputable def oscDir (direction : ℕ) (mu : ℝ) : Fin 3 → ℝ :=
  if direction = 1 then ![mu, Real.sqrt (1 - mu * mu), 0] else ![Real.sqrt (1 - mu * mu), mu, 0]

/-- A packet of prob/oscillations/problem.c:135-196. -/
noncomputable def oscPacket (E : ℝ) (direction : ℕ) (mu : ℝ) (fracs : List ℝ) (x : ℝ) (Nph Nsph : ℝ) : Packet :=
  { Kcov := (waves E (oscDir direction mu)).1, Kcon := (waves E (oscDir direction mu)).2, w := Nph / Nsph, type := sampleType fracs x 0 0, nscatt := some 0, t0 := some 0, tracked := none, oscillated := none }

/-- Checks of prob/oscillations/problem.c:70-86. -/
def oscAccepts (fracs : List ℝ) (direction : ℕ) : Prop := |fracs.sum - 1| ≤ 1 / 10 ^ 5 ∧ 1 ≤ direction ∧ direction ≤ 2

/-- Particles that all packets of the grid stand for together, prob/binning/problem.c:29, 63, 126 and prob/multiscatt/problem.c:30, 73, 99: integer divisions; each of the threads of each process goes through all zones of the process. `cells` is the number of zones of the grid, `vol` the volume of one zone in cubic centimetres, `nr0` the number density asked for. -/
noncomputable def binningTotal (Nr0 cells threads : ℕ) (nr0 vol : ℝ) : ℝ :=
  let perCell := Nr0 / cells
  (cells : ℝ) * (threads * (perCell / threads : ℕ) : ℝ) * (nr0 * vol / perCell)

/-- The same for prob/oscillations/problem.c:88-89, 135, 192: the number of packets per zone and thread is rounded up. -/
noncomputable def oscTotal (Nph Nsph : ℝ) (cells threads : ℕ) : ℝ :=
  (cells : ℝ) * (threads * ⌈Nsph / cells / threads⌉₊ : ℝ) * (Nph / Nsph)

/-- The same for prob/comptonization/problem.c:24, 54, 86 in one process: a loop bound that is not an integer. -/
noncomputable def comptonTotal (Nr0 : ℝ) (cells threads : ℕ) (nr0 vol : ℝ) : ℝ :=
  (cells : ℝ) * (threads * ⌈Nr0 / (cells * threads)⌉₊ : ℝ) * (nr0 * vol / (Nr0 / cells))

/-- Final temperature of prob/comptonization/problem.c:26. -/
noncomputable def comptonTf (h k nr nu ne Te gam : ℝ) : ℝ := (h * nr * nu + 2 * ne * k * Te / (gam - 1)) / (3 * nr * k + 2 * ne * k / (gam - 1))

/-- Energy density of the gas, prob/comptonization/problem.c:25, 32. -/
noncomputable def comptonU (k ne Te gam : ℝ) : ℝ := 2 * (ne * k * Te / (gam - 1))

end Nubhlight.StartPackets
