import Mathlib.Algebra.BigOperators.Group.Finset.Basic
import Mathlib.Data.Real.Basic

set_option autoImplicit false

/-! # Kinds of radiation: what a build asks for and what a zone radiates

script/config.py:314, 340-346, 364-366; core/decs.h:162-189, 709; core/make_superphotons.c:27-32, 67-69, 310-363, 366-421; core/emissivity.c:74-97, 113-167. Means
over random numbers are taken; integrals over frequency are given numbers. -/

namespace Nubhlight.RadKinds

/-- Values a build script can give the option `RADIATION`: none or `False`; `True` or the number 1, which Python takes for equal; the names that
core/decs.h:163-164 defines. -/
inductive Asked
  | off
  | yes
  | nameLight
  | nameNeutrinos
  deriving DecidableEq, Repr

/-- What the compiled program transports, core/decs.h:163-189: `RADTYPE_LIGHT` is 1, and `True` is written as 1. -/
inductive Kind
  | none
  | light
  | neutrinos
  deriving DecidableEq, Repr

/-- The value of `RADIATION` in C. -/
def kind : Asked → Kind
  | .off => .none
  | .yes => .light
  | .nameLight => .light
  | .nameNeutrinos => .neutrinos

/-- `RAD_NUM_TYPES`, script/config.py:340-346, 364-366: a number given by the build (0 does not count as given) or else one if the option `== 1`, which a
name is not, and three. -/
def numTypes (a : Asked) (given : Option ℕ) : ℕ :=
  match a with
  | .off => 0
  | a =>
    match given with
    | some (n + 1) => n + 1
    | _ => if a = .yes then 1 else 3

/-- Emissivities of one zone, integrated over frequencies and directions: of light, and of each type of neutrino. -/
structure Gas where
  light : ℝ
  nu : ℕ → ℝ

/-- `Jnu` integrated, core/emissivity.c:74-97: for light the argument `type` is not used. -/
def emissivity (k : Kind) (g : Gas) (type : ℕ) : ℝ :=
  match k with
  | .none => 0
  | .light => g.light
  | .neutrinos => g.nu type

/-- `get_J`, core/emissivity.c:113-167, from which the cooling time is taken: light once, neutrinos summed over types. -/
def getJ (k : Kind) (n : ℕ) (g : Gas) : ℝ :=
  match k with
  | .none => 0
  | .light => g.light
  | .neutrinos => ∑ t ∈ Finset.range n, g.nu t

/-- `Jtot` over zones of equal volume and `wgtC`, core/make_superphotons.c:322-341, up to the constant factors of the grid of frequencies: `TYPELOOP`
runs over `RAD_NUM_TYPES` types (core/decs.h:709). -/
noncomputable def wgtC (k : Kind) (n : ℕ) (zones : List Gas) (c Ns : ℝ) : ℝ :=
  (zones.map fun g => ∑ t ∈ Finset.range n, emissivity k g t).sum * c / Ns

/-- Mean number of packets of a type made in a zone in one step: emission over the weight, core/make_superphotons.c:350-363, 402-420. Without
`EXPTAU_WEIGHTS`; `dt` contains the constant factors. -/
noncomputable def packets (k : Kind) (n : ℕ) (zones : List Gas) (c Ns dt : ℝ) (g : Gas) (type : ℕ) : ℝ :=
  emissivity k g type * dt / wgtC k n zones c Ns

/-- Mean energy of the packets of all types made in a zone in one step (core/make_superphotons.c:67-103, 153): their number times their weight. -/
noncomputable def radiated (k : Kind) (n : ℕ) (zones : List Gas) (c Ns dt : ℝ) (g : Gas) : ℝ :=
  ∑ t ∈ Finset.range n, packets k n zones c Ns dt g t * wgtC k n zones c Ns

end Nubhlight.RadKinds
