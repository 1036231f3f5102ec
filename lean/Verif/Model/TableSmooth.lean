import Verif.Model.EosTable
import Verif.Model.Util
import Mathlib.Data.List.ProdSigma

set_option autoImplicit false

/-!
# Model of the median filter on equation of state tables, core/eos_stellar_collapse.c:339-345,1264-1312

Tables are lists, as in `Model/EosTable`. A read or a write outside a table is `none`; so is a median taken over a buffer that the
box does not fill exactly. Numbers are those of an ordered field: rounding is left out.
-/

namespace Nubhlight.TableSmooth
open Nubhlight.EosTable Nubhlight.Util

variable {K : Type*} [Field K] [LinearOrder K] [IsStrictOrderedRing K]

/-- `MF_W`, core/eos_stellar_collapse.h:132. -/
def mfW : ℕ := 3

/-- `MF_S`, core/eos_stellar_collapse.h:133. -/
def mfS : ℕ := (2 * mfW + 1) * (2 * mfW + 1) * (2 * mfW + 1)

/-- `EPSSMOOTH`, core/eos_stellar_collapse.h:131. -/
def epsSmooth : K := 10

/-- `compare_doubles`, core/util.c:13-17. -/
def compareDoubles (a b : K) : ℤ := (if a > b then 1 else 0) - (if a < b then 1 else 0)

/-- What `qsort(array, size, sizeof(double), compare_doubles)` promises (core/util.c:88): a permutation in which no entry compares
greater than a later one. -/
def Sorts (srt : List K → List K) : Prop := ∀ l : List K, (srt l).Perm l ∧ (srt l).Pairwise (fun a b => compareDoubles a b ≤ 0)

/-- `find_median`, core/util.c:87-93. -/
def findMedian (srt : List K → List K) (l : List K) : Option K := medianSorted (srt l)

/-- Values of one loop variable `iW`, core/eos_stellar_collapse.c:1274-1276. -/
def window (w : ℕ) : List ℤ := (List.range (2 * w + 1)).map fun n : ℕ => (n : ℤ) - w

/-- `fill_mdn_buffer` with the buffer of `MF_S` entries of its caller, core/eos_stellar_collapse.c:1270-1283,1291. The triples are in
the order of the loops: `iWy`, `iWt`, `iWr`, the last fastest. -/
def fillBuffer (A : Axes K) (width : ℕ) (iY iT irho : ℤ) (tab : List K) : Option (List K) :=
  let box := List.product (window width) (List.product (window width) (window width))
  if box.length = mfS then (box.map fun o => elem A (irho + o.2.2) (iT + o.2.1) (iY + o.1)).mapM (rd tab) else none

/-- Array write at a C index. -/
def wr (t : List K) (i : ℤ) (v : K) : Option (List K) := if 0 ≤ i ∧ i < t.length then some (t.set i.toNat v) else none

/-- `bad`, core/eos_stellar_collapse.c:1305. With a median of zero the quotient is infinite, hence greater than `EPSSMOOTH`, unless the
entry is zero as well; then it is not a number and the comparison is false. -/
def bad (avg pnt : K) : Bool := if avg = 0 then decide (pnt ≠ 0) else decide (|avg - pnt| / |avg| > epsSmooth)

/-- One pass of the loop body of `median_filter`, core/eos_stellar_collapse.c:1297-1307. -/
def filterCell (srt : List K → List K) (A : Axes K) (tabIn : List K) (tabOut : List K) (c : ℤ × ℤ × ℤ) : Option (List K) :=
  let e := elem A c.2.2 c.2.1 c.1
  (rd tabIn e).bind fun pnt =>
  (wr tabOut e pnt).bind fun out1 =>
  (fillBuffer A mfW c.1 c.2.1 c.2.2 tabIn).bind fun buffer =>
  (findMedian srt buffer).bind fun avg =>
  if bad avg pnt then wr out1 e avg else some out1

/-- Values of one loop variable from `MF_W` to `n - MF_W`, exclusive, core/eos_stellar_collapse.c:1293-1295. -/
def inner (n : ℕ) : List ℤ := (List.range (n - 2 * mfW)).map fun m : ℕ => (m : ℤ) + mfW

/-- `median_filter`, core/eos_stellar_collapse.c:1290-1311. -/
def medianFilter (srt : List K → List K) (A : Axes K) (tabIn tabOut : List K) : Option (List K) :=
  (List.product (inner A.y.n) (List.product (inner A.t.n) (inner A.r.n))).foldlM (filterCell srt A tabIn) tabOut

/-- What `EOS_SC_init` does with `tab_dpdrhoe` and with `tab_dpderho`, core/eos_stellar_collapse.c:341-344: `tab_tmp` is a copy. -/
def smooth (srt : List K → List K) (A : Axes K) (tab : List K) : Option (List K) := medianFilter srt A tab tab

end Nubhlight.TableSmooth
