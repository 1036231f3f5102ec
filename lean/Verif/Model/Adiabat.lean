import Mathlib.Algebra.Order.Field.Basic
import Mathlib.Data.List.MinMax

set_option autoImplicit false

/-! Lines of constant entropy in a table of the equation of state:
script/analysis/analyze_eos.py, class `Adiabat` (lines 149-228) and its helpers
(lines 464-503).  Ordered fields instead of floating point.  `interpolate.interp1d`
is linear interpolation.  `optimize.brentq` is a parameter, of which only
`RootSpec` is assumed: what it returns is an exact root in the interval (the
tolerance is left out).  A raised exception is `none`. -/

namespace Nubhlight.Adiabat

variable {K : Type} [Field K] [LinearOrder K]

/-- The arrays of a table used here (analyze_eos.py:88-142); `ent` and other 3d
arrays have the indices of electron fraction, temperature and density. -/
structure Table (K : Type) where
  ye : List K
  lT : List K
  lrho : List K
  ent : ℕ → ℕ → ℕ → K

/-- `np.where(a >= x)[0][0]` (analyze_eos.py:465, 485-486); an empty result raises
IndexError. -/
def firstGe (x : K) (a : List K) : Option ℕ := a.findIdx? (fun y => decide (x ≤ y))

/-- `interpolate.interp1d(xs,ys)(x)` for increasing `xs`; outside the range it raises
ValueError (analyze_eos.py:472-473, 499, 181). -/
def interp : List (K × K) → K → Option K
  | p :: q :: l, x =>
      if p.1 ≤ x ∧ x ≤ q.1 then some (p.2 + (q.2 - p.2) / (q.1 - p.1) * (x - p.1))
      else interp (q :: l) x
  | _, _ => none

/-- The type of a root finder: function, ends of the interval. -/
abbrev Finder (K : Type) := (K → Option K) → K → K → Option K

/-- The points of an array along density at one temperature (analyze_eos.py:472-473). -/
def row (t : Table K) (v : ℕ → ℕ → ℕ → K) (iY iT : ℕ) : List (K × K) :=
  t.lrho.zip ((List.range t.lrho.length).map (v iY iT))

/-- The points of an array along temperature at one density (analyze_eos.py:180-181,
499). -/
def col (t : Table K) (v : ℕ → ℕ → ℕ → K) (iY i : ℕ) : List (K × K) :=
  t.lT.zip ((List.range t.lT.length).map (fun j => v iY j i))

/-- `interp(x) - s`, the function given to the root finder (analyze_eos.py:475, 480,
500). -/
def off (l : List (K × K)) (s x : K) : Option K := (interp l x).map (· - s)

/-- One end of the range of densities: where the line leaves through an edge of the
table, or the end of the table (analyze_eos.py:474-483). -/
def edge (root : Finder K) (l : List (K × K)) (s a b dflt : K) : K :=
  (root (off l s) a b).getD dflt

/-- What `Adiabat` keeps: bounds, their indices, index of the electron fraction and
the temperatures of the densities from `ilo` to before `ihi`. -/
structure Line (K : Type) where
  iY : ℕ
  lo : K
  hi : K
  ilo : ℕ
  ihi : ℕ
  temps : List K

/-- `get_adiabat` restricted to the slice kept (analyze_eos.py:490-503, 159, 187-188):
the rest of the array is minus infinity and not looked at. -/
def temps (root : Finder K) (t : Table K) (s : K) (iY ilo ihi : ℕ) (a b : K) :
    Option (List K) :=
  (List.range' ilo (ihi - ilo)).mapM (fun i => root (off (col t t.ent iY i) s) a b)

/-- `Adiabat.__init__` (analyze_eos.py:150-160) with `get_iYe` and
`get_lrho_min_max` (lines 464-488). -/
def line (root : Finder K) (t : Table K) (s ye : K) : Option (Line K) := do
  let iY ← firstGe ye t.ye
  let rmin ← t.lrho.min?
  let rmax ← t.lrho.max?
  let tmin ← t.lT.min?
  let tmax ← t.lT.max?
  let lo := edge root (row t t.ent iY 0) s rmin rmax rmin
  let hi := edge root (row t t.ent iY (t.lT.length - 1)) s rmin rmax rmax
  let ilo ← firstGe lo t.lrho
  let ihi ← firstGe hi t.lrho
  let ts ← temps root t s iY ilo ihi tmin tmax
  return { iY := iY, lo := lo, hi := hi, ilo := ilo, ihi := ihi, temps := ts }

/-- `bnd1d` (analyze_eos.py:172-173). -/
def bnd1d (l : Line K) (var : List K) : List K := (var.drop l.ilo).take (l.ihi - l.ilo)

/-- `project` of a 1d array (analyze_eos.py:190-194): an array as long as that of the
temperatures is taken for it. -/
def project1 (t : Table K) (l : Line K) (var : List K) : List K :=
  if var.length = t.lT.length then l.temps else bnd1d l var

/-- `bnd3d` (analyze_eos.py:175-185). -/
def project3 (t : Table K) (l : Line K) (v : ℕ → ℕ → ℕ → K) : Option (List K) :=
  ((List.range' l.ilo (l.ihi - l.ilo)).zip l.temps).mapM
    (fun p => interp (col t v l.iY p.1) p.2)

/-- `np.gradient` of `n` values (analyze_eos.py:217): differences at the ends, half
the difference of the neighbours between. -/
def gradient (v : ℕ → K) (n i : ℕ) : K :=
  if i = 0 then v 1 - v 0
  else if i = n - 1 then v (n - 1) - v (n - 2)
  else (v (i + 1) - v (i - 1)) / 2

/-- `is_valid` (analyze_eos.py:216-217); fewer than two values raise ValueError. -/
def isValid (v : ℕ → K) (n : ℕ) : Option Bool :=
  if n < 2 then none else some ((List.range n).all (fun i => decide (0 ≤ gradient v n i)))

end Nubhlight.Adiabat
