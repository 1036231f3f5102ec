import Verif.Model.EosInvert

set_option autoImplicit false

/-!
# Curves of constant entropy in the tabulated equation of state

core/eos_stellar_collapse.c:969-1145, 1207-1240: the curve on which a torus is set up (prob/torus_cbc/problem.c:100-135, 225-240). Real numbers replace floating point, macro
settings as in `Model/EosTable.lean`. Printing is left out. The `double` of a density index in the loop is the table entry itself. `n` is fuel for the root finder, and an outer
`none` is out of fuel or a lookup in a table of wrong size; `outside` is a read outside the array of densities.
-/

namespace Nubhlight.EntropyCurve
open EosTable RootFind EosInvert
open Nubhlight.Util (rd interp1d findIndex)

/-- Tables in use: entropy, enthalpy less one (in cgs) and its logarithm, logarithm of energy, with the bounds of entropy and enthalpy over everything,
core/eos_stellar_collapse.c:367-368, 454-455, `h_shift` (467-471), and units. -/
structure Tabs where
  A : Axes ℝ
  ent : List ℝ
  hm1 : List ℝ
  lhm1 : List ℝ
  le : List ℝ
  entMin : ℝ
  entMax : ℝ
  hMin : ℝ
  hMax : ℝ
  hShift : ℝ
  CL : ℝ
  Uunit : ℝ
  RHOunit : ℝ

/-- `struct of_adiabat`, core/decs.h:626-632; the least and greatest enthalpy start from the infinities. -/
structure Curve where
  s : ℝ
  ye : ℝ
  lo : ℝ
  hi : ℝ
  imin : ℤ
  imax : ℤ
  hMin : WithTop ℝ
  hMax : WithBot ℝ
  lT : List ℝ

/-- How a call ends: `ROOT_FAIL` or `exit(1)`; a read outside an array; a result. -/
inductive Out (α : Type) where
  | fail
  | outside
  | ok (a : α)

/-- `catch_s`, core/eos_stellar_collapse.c:1535-1543. -/
noncomputable def catchS (T : Tabs) (s : ℝ) : ℝ := clamp T.entMin T.entMax s

/-- `catch_hm1`, core/eos_stellar_collapse.c:1545-1553. -/
noncomputable def catchH (T : Tabs) (h : ℝ) : ℝ := clamp T.hMin T.hMax h

/-- `catch_lrho`, core/eos_stellar_collapse.c:1447-1455. -/
noncomputable def catchLrho (T : Tabs) (x : ℝ) : ℝ := clampLrho T.A.r.lo T.A.r.hi x

/-- `find_adiabat_0d`, core/eos_stellar_collapse.c:969-983. -/
noncomputable def find0d (T : Tabs) (lrho guess ye s : ℝ) (n : ℕ) : Option (Res ℝ) :=
  findLT T.A T.ent (catchLrho T lrho) (catchLT T.A guess) (catchYe T.A ye) (catchS T s) n

/-- `ent_f_adiabat`, core/eos_stellar_collapse.c:1233-1240, as a function on the reals. At the last density itself entries with weight zero may be read past the end of the table
(C33); their value is not used. -/
noncomputable def entF (T : Tabs) (lT ye lrho : ℝ) : ℝ := (interp3 T.A T.ent (catchLrho T lrho) (catchLT T.A lT) (catchYe T.A ye)).getD 0

open Classical in
/-- One of the two searches of `adiabat_lrho_min_max`, core/eos_stellar_collapse.c:994-998 and 1006-1009. -/
noncomputable def findLrho (T : Tabs) (lT ye s guess : ℝ) (n : ℕ) : Option (Res ℝ) :=
  if ∀ x, x ≠ T.A.r.hi → (interp3 T.A T.ent x (catchLT T.A lT) (catchYe T.A ye)).isSome then
    findRoot (entF T lT ye) s guess T.A.r.lo (T.A.r.hi - 2 * tol) (100 * tol) (100 * tol) n
  else none

/-- What `adiabat_lrho_min_max` makes of the first search, core/eos_stellar_collapse.c:999-1002, 1016. -/
noncomputable def lowEnd (T : Tabs) (r : Res ℝ) : ℝ :=
  catchLrho T (match r with
    | .fail => T.A.r.lo + 100 * tol
    | .ok x => if x < T.A.r.lo then T.A.r.lo + 100 * tol else x)

/-- What it makes of the second search, core/eos_stellar_collapse.c:1010-1013, 1017. -/
noncomputable def highEnd (T : Tabs) (r : Res ℝ) : ℝ :=
  catchLrho T (match r with
    | .fail => T.A.r.hi - 100 * tol
    | .ok x => if x > T.A.r.hi then T.A.r.hi - 100 * tol else x)

/-- `adiabat_lrho_min_max`, core/eos_stellar_collapse.c:985-1018, from the ends of the table as its caller passes them (1027-1029). -/
noncomputable def ends (T : Tabs) (s ye : ℝ) (n : ℕ) : Option (ℝ × ℝ) :=
  let s := catchS T s
  let ye := catchYe T.A ye
  let guess := (catchLrho T T.A.r.lo + catchLrho T T.A.r.hi) / 2
  (findLrho T T.A.t.lo ye s guess n).bind fun a =>
    (findLrho T T.A.t.hi ye s guess n).map fun b => (lowEnd T a, highEnd T b)

/-- What the loop changes: stored temperatures, least and greatest enthalpy. -/
abbrev Acc := List ℝ × WithTop ℝ × WithBot ℝ

open Classical in
/-- One pass of the loop, core/eos_stellar_collapse.c:1047-1058. The enthalpy looked up after a failed search is not used. -/
noncomputable def pass (T : Tabs) (s ye : ℝ) (n : ℕ) (i : ℕ) (acc : Acc) : Option (Out Acc) :=
  match rd T.A.r.x i with
  | none => some .outside
  | some x =>
    (find0d T x (T.A.t.d / T.A.r.d * x) ye s n).bind fun r =>
      match r with
      | .fail => some .fail
      | .ok t => (interp3 T.A T.hm1 x t ye).map fun (h : ℝ) =>
          .ok (acc.1.set i t, if (h : WithTop ℝ) < acc.2.1 then (h : WithTop ℝ) else acc.2.1, if acc.2.2 < (h : WithBot ℝ) then (h : WithBot ℝ) else acc.2.2)

/-- The loop, core/eos_stellar_collapse.c:1047-1058. -/
noncomputable def loop (T : Tabs) (s ye : ℝ) (n : ℕ) : List ℕ → Acc → Option (Out Acc)
  | [], acc => some (.ok acc)
  | i :: l, acc => (pass T s ye n i acc).bind fun o =>
      match o with
      | .ok acc => loop T s ye n l acc
      | o => some o

/-- `ilrho_min`, core/eos_stellar_collapse.c:1032, 1034-1035. -/
noncomputable def firstIndex (T : Tabs) (lo : ℝ) : ℤ := if findIndex lo T.A.r.x < 0 then 0 else findIndex lo T.A.r.x

/-- `ilrho_max`, core/eos_stellar_collapse.c:1033, 1036-1037. -/
noncomputable def lastIndex (T : Tabs) (hi : ℝ) : ℤ :=
  if findIndex hi T.A.r.x - 1 > (T.A.r.n : ℤ) - 2 then (T.A.r.n : ℤ) - 2 else findIndex hi T.A.r.x - 1

/-- Indices `i` with `a ≤ i < b + 1`. -/
def indices (a b : ℤ) : List ℕ := List.range' a.toNat (b + 1 - a).toNat

/-- `EOS_SC_find_adiabat_1d`, core/eos_stellar_collapse.c:1024-1071; `mem` is what the block returned by `safe_malloc` (1042) holds. -/
noncomputable def find1d (T : Tabs) (mem : List ℝ) (s ye : ℝ) (n : ℕ) : Option (Out Curve) :=
  let s := catchS T s
  let ye := catchYe T.A ye
  (ends T s ye n).bind fun e =>
    let imin := firstIndex T e.1
    let imax := lastIndex T e.2
    match rd T.A.r.x imin, rd T.A.r.x imax with
    | some lo, some hi => (loop T s ye n (indices imin imax) (mem, ⊤, ⊥)).map fun o =>
        match o with
        | .ok acc => .ok ⟨s, ye, lo, hi, imin, imax, acc.2.1, acc.2.2, acc.1⟩
        | .fail => .fail
        | .outside => .outside
    | _, _ => some .outside

/-- Temperature on a curve, core/eos_stellar_collapse.c:1129-1130, 1213-1214. -/
noncomputable def tempOn (T : Tabs) (c : Curve) (lrho : ℝ) : Option ℝ := interp1d lrho c.lo c.hi c.imin c.imax T.A.r.x c.lT

/-- `lT_f_adiabat`, core/eos_stellar_collapse.c:1207-1231, as a function on the reals. -/
noncomputable def curveF (T : Tabs) (c : Curve) (lrho : ℝ) : ℝ := ((tempOn T c lrho).bind fun t => interp3 T.A T.lhm1 lrho t c.ye).getD 0

/-- `EOS_SC_hm1_min_adiabat`, core/eos_stellar_collapse.c:1020-1022. -/
noncomputable def hMinCurve (T : Tabs) (c : Curve) : WithTop ℝ := c.hMin.map (· / (T.CL * T.CL))

/-- The enthalpy sought, core/eos_stellar_collapse.c:1094, 1100-1104; `none` when it is infinite or the logarithm does not exist. -/
noncomputable def target (T : Tabs) (c : Curve) (hm1 : ℝ) : Option ℝ :=
  let h := catchH T (hm1 * T.CL * T.CL)
  match c.hMin with
  | ⊤ => none
  | (m : ℝ) => let h := if h < m then m + tol else h
      if h + T.hShift ≤ 0 then none else some (log10 (h + T.hShift))

open Classical in
/-- `EOS_SC_isoentropy_hm1`, core/eos_stellar_collapse.c:1092-1145: new guess (logarithm of density), density and energy. `exit(1)` is `fail`, which is also how the search ends when
the enthalpy sought is not a number. -/
noncomputable def gasOn (T : Tabs) (c : Curve) (hm1 guess : ℝ) (n : ℕ) : Option (Out (ℝ × ℝ × ℝ)) :=
  match target T c hm1 with
  | none => some .fail
  | some y =>
    if ∀ x, x ≠ T.A.r.hi → ((tempOn T c x).bind fun t => interp3 T.A T.lhm1 x t c.ye).isSome then
      (findRoot (curveF T c) y (catchLrho T guess) c.lo c.hi (100 * tol) (100 * tol) n).bind fun r =>
        match r with
        | .fail => some .fail
        | .ok lrho => (tempOn T c lrho).bind fun t => (interp3 T.A T.le lrho t (catchYe T.A c.ye)).map fun le =>
            .ok (lrho, exp10 lrho / T.RHOunit, e2u 0 (exp10 lrho) (le2e 0 le) / T.Uunit)
    else some .outside

end Nubhlight.EntropyCurve
