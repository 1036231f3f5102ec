import Verif.Model.Fluid
import Mathlib.Analysis.Real.Pi.Bounds

set_option autoImplicit false

/-!
# Model of core/current.c: permutation symbol, Maxwell tensor and four-current

Real numbers replace floating point. C `int` arguments are integers. An array read outside `0 .. n-1`, a division by zero
and an unfinished loop are `none`.
-/

namespace Nubhlight.Current
open Nubhlight.Fluid

/-- The `do ... while` walk along one cycle, core/current.c:150-153: marks the visited entries, starting from `x`, until
`j` is met again. `fuel` bounds the number of rounds. -/
def walk (P : List ℕ) (j : ℕ) : ℕ → ℕ → List Bool → Option (List Bool)
  | 0, _, _ => none
  | fuel + 1, x, v =>
    match P[x]? with
    | none => none
    | some y =>
      if y < v.length then
        let v' := v.set y true
        if y = j then some v' else walk P j fuel y v'
      else none

/-- The outer loop of `pp`, core/current.c:145-155, over the listed values of `j`; `p` counts visited starting points. -/
def ppLoop (P : List ℕ) : List ℕ → List Bool → ℕ → Option ℕ
  | [], _, p => some p
  | j :: js, v, p =>
    match v[j]? with
    | none => none
    | some true => ppLoop P js v (p + 1)
    | some false =>
      match walk P j P.length j v with
      | none => none
      | some v' => ppLoop P js v' p

/-- `pp`, core/current.c:137-162, with `n` the length of `P`. -/
def pp (P : List ℕ) : Option ℤ :=
  (ppLoop P (List.range P.length) (List.replicate P.length false) 0).map fun p => if p % 2 = 0 then 1 else -1

/-- `antisym`, core/current.c:105-134. -/
def antisym (a b c d : ℤ) : Option ℤ :=
  if a < 0 ∨ a > 3 then some 100
  else if b < 0 ∨ b > 3 then some 100
  else if c < 0 ∨ c > 3 then some 100
  else if d < 0 ∨ d > 3 then some 100
  else if a = b then some 0
  else if a = c then some 0
  else if a = d then some 0
  else if b = c then some 0
  else if b = d then some 0
  else if c = d then some 0
  else pp [a.toNat, b.toNat, c.toNat, d.toNat]

/-- The symbol as it enters the tensor (`antisym` always returns a value, theorem `C28_symbol`). -/
def eps (a b c d : Fin 4) : ℤ := (antisym a.val b.val c.val d.val).getD 0

/-- `Fcon_calc`, core/current.c:78-102: `sqrt(-g) F^{mu nu}` of the primitives at a zone with geometry `G`. -/
noncomputable def fcon (P : Prim) (G : Geom) (mu nu : Fin 4) : Option ℝ :=
  if mu = nu then some 0
  else if G.g = 0 then none
  else
    let q := getState P G
    some ((∑ kap, ∑ lam, (-1 / G.g) * (eps mu nu kap lam : ℝ) * q.ucov kap * q.bcov lam) * G.g)

/-- Zone indices relative to the first active zone. -/
abbrev Arr (V : Type*) := ℤ → ℤ → ℤ → V

/-- Grid data used by `current_calc`: zones per direction, spacings, geometry at zone centres (by `i, j`), previous step. -/
structure Grid where
  n1 : ℕ
  n2 : ℕ
  n3 : ℕ
  dx : Fin 4 → ℝ
  geom : ℤ → ℤ → Geom
  dtsave : ℝ

/-- The time-centred primitives, core/current.c:30-32; `old` are the contents `Pa` had before. -/
noncomputable def centred (g : Grid) (P Psave old : Arr Prim) : Arr Prim := fun i j k =>
  if (-1 ≤ i ∧ i ≤ g.n1 - 1 + 3) ∧ (-1 ≤ j ∧ j ≤ g.n2 - 1 + 3) ∧ (-1 ≤ k ∧ k ≤ g.n3 - 1 + 3) then
    fun ip => 1 / 2 * (P i j k ip + Psave i j k ip)
  else old i j k

/-- Difference of two tensor components divided by a spacing, core/current.c:69-72. -/
noncomputable def diffQuot (a b : Option ℝ) (h : ℝ) : Option ℝ :=
  a.bind fun x => b.bind fun y => if h = 0 then none else some ((x - y) / h)

/-- `current_calc` for one active zone and component, core/current.c:36-74; at step 0 the current is zero
(core/current.c:21-27). -/
noncomputable def current (g : Grid) (nstep : ℕ) (P Psave old : Arr Prim) (i j k : ℤ) (mu : Fin 4) : Option ℝ :=
  if nstep = 0 then some 0
  else
    let Pa := centred g P Psave old
    let F (A : Arr Prim) (dir : Fin 4) (i j k : ℤ) : Option ℝ := fcon (A i j k) (g.geom i j) dir mu
    (diffQuot (F P 0 i j k) (F Psave 0 i j k) g.dtsave).bind fun d0 =>
    (diffQuot (F Pa 1 (i + 1) j k) (F Pa 1 (i - 1) j k) (2 * g.dx 1)).bind fun d1 =>
    (diffQuot (F Pa 2 i (j + 1) k) (F Pa 2 i (j - 1) k) (2 * g.dx 2)).bind fun d2 =>
    (diffQuot (F Pa 3 i j (k + 1)) (F Pa 3 i j (k - 1)) (2 * g.dx 3)).bind fun d3 =>
    let den := 4 * Real.pi * (g.geom i j).g
    if den = 0 then none else some (1 / den * (d0 + d1 + d2 + d3))

end Nubhlight.Current
