import Verif.Model.EosInvert
import Verif.Model.TableFallback
import Verif.Model.TableSmooth

set_option autoImplicit false

/-!
# An ideal gas as a table

script/analysis/make_tabulated_gamma.py writes the table of an ideal gas; core/eos_stellar_collapse.c:339-549 (`EOS_SC_init`) loads it and derives the bounds, the enthalpy, the
sound speed and the polytrope. Real numbers replace floating point. The file itself (HDF5) is not modelled: what is written is what is read. The generator's command line, its
messages and its refusal of a sound speed above that of light (line 107) are left out; `make_table_u` is the entry used without `--tempmin`, `--tempmax`.
-/

namespace Nubhlight.GammaTable
open EosTable EosInvert

/-- Constants in cgs units, script/analysis/units.py:10,13,28-29: speed of light, proton mass, MeV. -/
structure Cgs where
  CL : ℝ
  MP : ℝ
  MEV : ℝ

/-- `UnitSystem`, script/analysis/units.py:42-55, from the mass unit and the length unit. -/
structure Units where
  M : ℝ
  L : ℝ

/-- `self.RHO`, script/analysis/units.py:53; also `RHO_unit`, core/util.c:143. -/
noncomputable def Units.RHO (u : Units) : ℝ := u.M / u.L ^ 3

/-- `self.U`, script/analysis/units.py:54; also `U_unit`, core/util.c:144. -/
noncomputable def Units.U (c : Cgs) (u : Units) : ℝ := u.RHO * c.CL * c.CL

/-- `self.T`, script/analysis/units.py:55. -/
noncomputable def tempUnit (c : Cgs) : ℝ := c.MP * c.CL * c.CL / c.MEV

/-- Arguments of `make_table_temp`, script/analysis/make_tabulated_gamma.py:83-87; densities and temperatures in code units. -/
structure Args where
  rhoMin : ℝ
  rhoMax : ℝ
  nr : ℕ
  tMin : ℝ
  tMax : ℝ
  nt : ℕ
  yeMin : ℝ
  yeMax : ℝ
  ny : ℕ
  gam : ℝ

/-- `make_table_u`, script/analysis/make_tabulated_gamma.py:65-81, with `eps` (34-35) and `e2temp` (28-32): the range of temperatures from ranges of density and energy. -/
noncomputable def fromU (rhoMin rhoMax : ℝ) (nr : ℕ) (uMin uMax : ℝ) (nu : ℕ) (yeMin yeMax : ℝ) (ny : ℕ) (gam : ℝ) : Args :=
  ⟨rhoMin, rhoMax, nr, (gam - 1) * (uMin / rhoMax), (gam - 1) * (uMax / rhoMin), nu, yeMin, yeMax, ny, gam⟩

/-- `np.linspace`. -/
noncomputable def linspace (lo hi : ℝ) (n : ℕ) : List ℝ := (List.range n).map fun m : ℕ => lo + (m : ℝ) * ((hi - lo) / ((n : ℝ) - 1))

/-- `lrho`, `lt`, `ye`, script/analysis/make_tabulated_gamma.py:90-99. -/
noncomputable def lrhos (u : Units) (a : Args) : List ℝ := linspace (log10 (a.rhoMin * u.RHO)) (log10 (a.rhoMax * u.RHO)) a.nr
@[inherit_doc lrhos]
noncomputable def lts (c : Cgs) (a : Args) : List ℝ := linspace (log10 (a.tMin * tempUnit c)) (log10 (a.tMax * tempUnit c)) a.nt
@[inherit_doc lrhos]
noncomputable def yes (a : Args) : List ℝ := linspace a.yeMin a.yeMax a.ny

/-- `t2eps`, script/analysis/make_tabulated_gamma.py:37-41. -/
noncomputable def t2eps (c : Cgs) (gam T : ℝ) : ℝ := T * c.MEV / (c.MP * (gam - 1))

/-- `press`, script/analysis/make_tabulated_gamma.py:25-26. -/
noncomputable def press (gam rho eps : ℝ) : ℝ := (gam - 1) * rho * eps

/-- `LE` at a logarithm of density and of temperature, script/analysis/make_tabulated_gamma.py:100-104,119. -/
noncomputable def LE (c : Cgs) (gam _lr lt : ℝ) : ℝ := log10 (t2eps c gam (exp10 lt))

/-- `LP`, script/analysis/make_tabulated_gamma.py:105,118. -/
noncomputable def LP (c : Cgs) (gam lr lt : ℝ) : ℝ := log10 (press gam (exp10 lr) (t2eps c gam (exp10 lt)))

/-- `DPDRHOE`, script/analysis/make_tabulated_gamma.py:115. -/
noncomputable def DPDRHOE (c : Cgs) (gam _lr lt : ℝ) : ℝ := (gam - 1) * t2eps c gam (exp10 lt)

/-- `DPDERHO`, script/analysis/make_tabulated_gamma.py:116. -/
noncomputable def DPDERHO (gam lr _lt : ℝ) : ℝ := (gam - 1) * exp10 lr

/-- `GAMMA`, script/analysis/make_tabulated_gamma.py:114: ones, not `gam`. -/
def GAMMA (_gam _lr _lt : ℝ) : ℝ := 1

/-- `tab_hm1`, core/eos_stellar_collapse.c:434-445. -/
noncomputable def hm1 (le lP lr : ℝ) : ℝ := le2e 0 le + exp10 lP / exp10 lr

/-- `tab_lwmrho`, core/eos_stellar_collapse.c:430-444,479-481, with `w_shift = 0` (462-466: all entries are positive). -/
noncomputable def lwmrho (le lP lr : ℝ) : ℝ := log10 (e2u 0 (exp10 lr) (le2e 0 le) + exp10 lP)

/-- A three-dimensional array as a list, density fastest (script/analysis/make_tabulated_gamma.py:103, `indexing='ij'` over electron fraction, temperature, density), from its values at the node
numbers. -/
def tabList (nr nt ny : ℕ) (f : ℕ → ℕ → ℕ → ℝ) : List ℝ := (List.range (nr * (ny * nt))).map fun m => f (m % nr) (m / nr % nt) (m / (nr * nt))

/-- `fill_max_min_2d`, core/eos_stellar_collapse.c:1331-1350: smallest and largest over temperature. The loops start from infinities; here from the first entry, which the first pass
gives. -/
noncomputable def lowOver (nt : ℕ) (f : ℕ → ℕ → ℕ → ℝ) (i k : ℕ) : ℝ := ((List.range nt).map fun j => f i j k).foldl min (f i 0 k)
@[inherit_doc lowOver]
noncomputable def highOver (nt : ℕ) (f : ℕ → ℕ → ℕ → ℝ) (i k : ℕ) : ℝ := ((List.range nt).map fun j => f i j k).foldl max (f i 0 k)

/-- The two-dimensional array of the bounds, density fastest. -/
def tabList2 (nr ny : ℕ) (g : ℕ → ℕ → ℝ) : List ℝ := (List.range (nr * ny)).map fun m => g (m % nr) (m / nr)

/-- One dependent variable with all its bounds, core/eos_stellar_collapse.c:365-370,388-393,452-453,489-493 (`find_min`, `find_max`). The linear bounds are powers of the
logarithmic ones; for the enthalpy (452-453) they are found directly, which is the same with `w_shift = 0`. -/
noncomputable def dep (nr nt ny : ℕ) (f : ℕ → ℕ → ℕ → ℝ) : Dep :=
  let l := tabList nr nt ny f
  let lo := l.foldl min (f 0 0 0)
  let hi := l.foldl max (f 0 0 0)
  ⟨l, tabList2 nr ny (lowOver nt f), tabList2 nr ny (highOver nt f), exp10 lo, exp10 hi, lo, hi, 0⟩

/-- Entry of an array (`tab_lrho[irho]` and so on); only existing entries are used. -/
noncomputable def entry (l : List ℝ) (i : ℕ) : ℝ := (l[i]?).getD 0

/-- The values of a table as functions of the node numbers. -/
noncomputable def onNodes (A : Axes ℝ) (F : ℝ → ℝ → ℝ) (i j _k : ℕ) : ℝ := F (entry A.r.x i) (entry A.t.x j)

/-- The logarithm of the enthalpy as `EOS_SC_init` computes it from the tables of energy and pressure. -/
noncomputable def LW (c : Cgs) (gam lr lt : ℝ) : ℝ := lwmrho (LE c gam lr lt) (LP c gam lr lt) lr

/-- The specific enthalpy less the rest mass, likewise. -/
noncomputable def HM1 (c : Cgs) (gam lr lt : ℝ) : ℝ := hm1 (LE c gam lr lt) (LP c gam lr lt) lr

/-- `tab_cs2`, core/eos_stellar_collapse.c:503-526, from the derivatives in the file. -/
noncomputable def CS2 (c : Cgs) (small gam lr lt dpdrhoe dpderho : ℝ) : ℝ :=
  cs2Stored small (TableFallback.cs2Raw c.CL 0 (exp10 lr) (exp10 (LP c gam lr lt)) (HM1 c gam lr lt) dpdrhoe dpderho)

/-- The axes as loaded, core/eos_stellar_collapse.c:347-362. -/
noncomputable def axes (c : Cgs) (u : Units) (a : Args) : Option (Axes ℝ) :=
  (Axis.init a.nr (lrhos u a)).bind fun r => (Axis.init a.nt (lts c a)).bind fun t => (Axis.init a.ny (yes a)).map fun y => ⟨r, t, y⟩

/-- `EOS_SC_init` on the file written by the generator, for a run with unit system `v` (the table is in cgs units): the tables used to find temperatures. -/
noncomputable def load (c : Cgs) (u v : Units) (a : Args) : Option Tables :=
  (axes c u a).map fun A =>
    { A := A
      le := dep a.nr a.nt a.ny (onNodes A (LE c a.gam))
      lw := dep a.nr a.nt a.ny (onNodes A (LW c a.gam))
      lP := dep a.nr a.nt a.ny (onNodes A (LP c a.gam))
      Uunit := v.U c
      RHOunit := v.RHO }

/-- The tables for the enthalpy, the sound speed and the polytrope, core/eos_stellar_collapse.c:339-345,424-549; the derivatives pass the median filter first. The entropy
(script/analysis/make_tabulated_gamma.py:112) is left out: its list is empty. -/
noncomputable def loadTab (c : Cgs) (small : ℝ) (srt : List ℝ → List ℝ) (u v : Units) (a : Args) : Option TableFallback.Tab :=
  (axes c u a).bind fun A =>
    (TableSmooth.smooth srt A (tabList a.nr a.nt a.ny (onNodes A (DPDRHOE c a.gam)))).bind fun dr =>
    (TableSmooth.smooth srt A (tabList a.nr a.nt a.ny (onNodes A (DPDERHO a.gam)))).map fun de =>
    { A := A
      lP := tabList a.nr a.nt a.ny (onNodes A (LP c a.gam))
      ent := []
      hm1 := tabList a.nr a.nt a.ny (onNodes A (HM1 c a.gam))
      cs2 := tabList a.nr a.nt a.ny fun i j k =>
        CS2 c small a.gam (entry A.r.x i) (entry A.t.x j) (entry dr (k * (a.nr * a.nt) + j * a.nr + i)) (entry de (k * (a.nr * a.nt) + j * a.nr + i))
      polyK := tabList a.nr a.nt a.ny (onNodes A fun lr lt => TableFallback.polyKOf (LP c a.gam lr lt) (GAMMA a.gam lr lt) lr)
      polyG := tabList a.nr a.nt a.ny (onNodes A (GAMMA a.gam))
      Uunit := v.U c
      RHOunit := v.RHO
      CL := c.CL }

end Nubhlight.GammaTable
