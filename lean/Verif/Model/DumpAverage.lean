import Mathlib.Algebra.Order.Field.Basic
import Mathlib.Algebra.BigOperators.Group.List.Basic

set_option autoImplicit false

/-!
# Averages of dumps

script/analysis: `average_dumps.py` (mean over dumps), `dump_3d_to_2d.py` (mean over azimuth), `sadw.py` (radial profiles). Numbers are of an ordered field.
-/

namespace Nubhlight.DumpAverage

variable {K : Type*} [Field K] [LinearOrder K]

/-! ## Over dumps -/

/-- An array as h5py gives it: of integers or of floating-point numbers, row-major. -/
inductive Arr (K : Type*) where
  | ints (l : List ℤ)
  | flts (l : List K)

/-- What a dump holds under a name: an array, or something that `get_data` turns into nothing (a group), script/analysis/dump_3d_to_2d.py:50-58. -/
inductive Entry (K : Type*) where
  | arr (a : Arr K)
  | group

/-- A dump file: its entries by name. -/
abbrev Dump (K : Type*) := List (String × Entry K)

/-- The names copied as header, script/analysis/dump_3d_to_2d.py:62-94. -/
def hdrNames : List String :=
  ["N1tot", "N2tot", "N3tot", "metric", "electrons", "radiation", "tracers", "output_eosvars", "nvar", "startx[1]", "startx[2]", "startx[3]", "dx[1]", "dx[2]",
   "dx[3]", "version", "nvar_passive", "eos", "nulnutype", "camera", "nth", "nphi", "nubins_spec", "vnams", "cour", "DTd", "DTf", "DTl", "DTp", "DTr", "DNr", "tf",
   "game", "gamp", "L_unit", "T_unit", "M_unit", "RHO_unit", "U_unit", "B_unit", "tp_over_te", "Ne_unit", "Thetae_unit", "maxnscatt", "nubins", "numin", "numax",
   "TEMP_unit", "derefine_poles", "Rin", "Rout", "Reh", "Risco", "hslope", "a", "poly_xt", "poly_alpha", "mks_smooth", "Rout_vis", "Mbh", "mbh", "Rout_rad", "gam",
   "eospath", "poly_K", "poly_gam", "t", "dt", "dump_cnt", "nuLnu", "failed", "full_dump", "gamma_fallback", "nstep", "passive_type"]

/-- `src[name]` -/
def Dump.get (d : Dump K) (name : String) : Option (Entry K) := (d.find? fun e => e.1 == name).map (·.2)

/-- `np.zeros_like` -/
def zerosLike : Arr K → Arr K
  | .ints l => .ints (l.map fun _ => 0)
  | .flts l => .flts (l.map fun _ => 0)

/-- `avgs[name]` as set up from the first dump: the arrays not in the header, script/analysis/average_dumps.py:47-55. -/
def setup (d : Dump K) : List (String × Arr K) :=
  d.filterMap fun e =>
    if e.1 ∈ hdrNames then none
    else match e.2 with
      | .arr a => some (e.1, zerosLike a)
      | .group => none

/-- `a += b`, script/analysis/average_dumps.py:65. numpy does not add floating-point numbers to an array of integers in place; arrays of other lengths stop the
script (numpy would stretch an array of one element). -/
def addTo : Arr K → Arr K → Option (Arr K)
  | .ints a, .ints b => if a.length = b.length then some (.ints (List.zipWith (· + ·) a b)) else none
  | .flts a, .flts b => if a.length = b.length then some (.flts (List.zipWith (· + ·) a b)) else none
  | .flts a, .ints b => if a.length = b.length then some (.flts (List.zipWith (fun (x : K) (y : ℤ) => x + y) a b)) else none
  | .ints _, .flts _ => none

/-- One name of one dump added, script/analysis/average_dumps.py:62-65: a missing name stops the script, a group is passed over. -/
def addEntry (d : Dump K) (x : String × Arr K) : Option (String × Arr K) :=
  match d.get x.1 with
  | none => none
  | some .group => some x
  | some (.arr b) => (addTo x.2 b).map fun s => (x.1, s)

/-- One dump added, script/analysis/average_dumps.py:61-65. -/
def addDump (avgs : List (String × Arr K)) (d : Dump K) : Option (List (String × Arr K)) := avgs.mapM (addEntry d)

/-- `avgs[name] /= float(imax - imin)`, script/analysis/average_dumps.py:68: numpy does not divide an array of integers in place by a floating-point number. -/
def divide (n : ℕ) (x : String × Arr K) : Option (String × List K) :=
  match x.2 with
  | .ints _ => none
  | .flts l => some (x.1, l.map (· / (n : K)))

/-- Last dump of the average, script/analysis/average_dumps.py:33-34. -/
def lastIndex (n : ℕ) (imax : ℤ) : ℤ := if imax = -1 then (n : ℤ) - 1 else imax

/-- `avg_dump_files` for `imin ≥ 0`, script/analysis/average_dumps.py:32-77: the averaged arrays written, `none` if it stops. The copied header and attributes are not
here, except that `P` must be there for them (lines 72-74). -/
def avgDumps (dumps : List (Dump K)) (imin : ℕ) (imax : ℤ) : Option (List (String × List K)) :=
  let last := lastIndex dumps.length imax
  if (imin : ℤ) < last ∧ last + 1 ≤ (dumps.length : ℤ) then
    match dumps[imin]? with
    | none => none
    | some first => do
      let sums ← ((dumps.drop imin).take (last.toNat - imin)).foldlM addDump (setup first)
      let out ← sums.mapM (divide (last.toNat - imin))
      match dumps[last.toNat]? with
      | none => none
      | some d => if (d.get "P").isSome ∧ "P" ∈ out.map (·.1) then some out else none
  else none

/-! ## Over azimuth -/

/-- `_basic_simps` of scipy with equal spacing 1: Simpson's rule on points 0, 1, 2, then 2, 3, 4, and so on. -/
def basic : List K → K
  | a :: b :: c :: l => (a + 4 * b + c) / 3 + basic (c :: l)
  | _ => 0

/-- Trapezoid of the first two points. -/
def firstPair : List K → K
  | a :: b :: _ => (a + b) / 2
  | _ => 0

/-- Trapezoid of the last two points. -/
def lastPair (l : List K) : K := firstPair l.reverse

/-- `scipy.integrate.simps(y, dx=dx)` with its default `even='avg'`, called in script/analysis/dump_3d_to_2d.py:163-165 and sadw.py:23, 26: for an odd number of points
Simpson's rule, for an even number the mean of Simpson's rule on all but the last point with a trapezoid there and Simpson's rule on all but the first with a trapezoid
there. scipy is not part of the code; this is what its source did when the script was written. No points stop it; the callers have two or more. -/
def simps (dx : K) (y : List K) : K :=
  if y.length % 2 = 0 then dx * ((basic y.dropLast + basic y.tail) / 2 + (lastPair y + firstPair y) / 2)
  else dx * basic y

/-- `avg_phi` for one line of zones in azimuth, `zones`; `gd` is the entry of the metric array numpy sets beside a zone, script/analysis/dump_3d_to_2d.py:158-167; `small` is
`SMALL`. -/
def avgPhi {ι : Type*} (small dx : K) (gd q : ι → K) (zones : List ι) : K :=
  simps dx (zones.map fun z => q z * gd z) / (simps dx (zones.map fun z => gd z * 1) + small)

/-- Width in azimuth of the one zone of the dump written, script/analysis/dump_3d_to_2d.py:100-102. -/
def newWidth (dx : K) (n : ℕ) : K := dx * n

/-- First axis with `n` points, `np.where(…)[0][0]`; stops if there is none. -/
def firstAxis (shape : List ℕ) (n : ℕ) : Option ℕ := (List.range shape.length).find? fun a => shape[a]? == some n

/-- Last axis with `n` points, `np.where(…)[0][-1]`. -/
def lastAxis (shape : List ℕ) (n : ℕ) : Option ℕ := ((List.range shape.length).reverse).find? fun a => shape[a]? == some n

/-- The two axes of `q` along which the metric (of `n1` times `n2` numbers, for `[:,:,0]` of the grid file, script/analysis/hdf5_to_dict.py:193-196) runs after
`get_padded_metric`, script/analysis/dump_3d_to_2d.py:104-112: `istart` axes of length one are put in front and as many as `q` has after `iend` behind; numpy sets the
last axis of both beside each other and stops if lengths differ. For `n1, n2 > 1` and a metric of no more axes than `q`. -/
def metricAxes (shape : List ℕ) (n1 n2 : ℕ) : Option (ℕ × ℕ) := do
  let istart ← firstAxis shape n1
  let iend ← lastAxis shape n2
  if istart + 1 ≤ iend ∧ shape[iend - 1]? = some n1 then some (iend - 1, iend) else none

/-! ## Over shells -/

/-- `integrate_shell` at one radius for more than one zone in azimuth, script/analysis/sadw.py:13-27: `js` and `ks` are the zones in the polar angle and in azimuth. -/
def shell {ι κ : Type*} (dx2 dx3 : K) (gd : ι → K) (var : ι → κ → K) (js : List ι) (ks : List κ) : K :=
  simps dx2 (js.map fun j => simps dx3 (ks.map fun k => var j k * gd j))

/-- The same with one zone in azimuth, script/analysis/sadw.py:17-19, 24-26; `twoPi` is `2*np.pi`. -/
def shell2d {ι : Type*} (twoPi dx2 : K) (gd : ι → K) (var : ι → K) (js : List ι) : K := simps dx2 (js.map fun j => twoPi * (var j * gd j))

/-- `get_density_weighted_profile` at one radius, script/analysis/sadw.py:29-35; division by zero is its own outcome. -/
def weighted {ι κ : Type*} (dx2 dx3 : K) (gd : ι → K) (rho q : ι → κ → K) (js : List ι) (ks : List κ) : Option K :=
  let d := shell dx2 dx3 gd rho js ks
  if d = 0 then none else some (shell dx2 dx3 gd (fun j k => q j k * rho j k) js ks / d)

/-- `get_spherical_average` at one radius, script/analysis/sadw.py:37-43. -/
def spherical {ι κ : Type*} (dx2 dx3 : K) (gd : ι → K) (q : ι → κ → K) (js : List ι) (ks : List κ) : Option K :=
  let d := shell dx2 dx3 gd (fun _ _ => 1) js ks
  if d = 0 then none else some (shell dx2 dx3 gd q js ks / d)

/-! ## Zones between ranks -/

/-- `interp1d(points, vals)` between two points. -/
def interp2 (x0 x1 v0 v1 x : K) : K := v0 + (v1 - v0) / (x1 - x0) * (x - x0)

/-- `interp_ghosts` along one line of zones at coordinates `x` for `ncpu` ranks, script/analysis/dump_3d_to_2d.py:146-156; `q` is what it reads, the result starts from it. The
interpolation is taken at the two points it was made from (`q_interp(points)`, line 155). -/
def interpGhosts (x q : ℕ → K) (ntot ncpu : ℕ) : ℕ → K :=
  let nloc := ntot / ncpu
  let q0 : ℕ → K := fun n => if n = ntot - 1 then q (ntot - 2) else if n = 0 then q 1 else q n
  ((List.range ncpu).drop 1).foldl
    (fun qc i =>
      let idx := i * nloc
      let f := interp2 (x (idx - 2)) (x (idx + 1)) (q (idx - 2)) (q (idx + 1))
      fun n => if n = idx - 1 then f (x (idx - 2)) else if n = idx then f (x (idx + 1)) else qc n) q0

end Nubhlight.DumpAverage
