import Verif.Common
import Verif.Props.Fluid2
import Verif.Props.Metric

set_option autoImplicit false

/-!
# C80: the geometric source terms

The specification is the textbook form of the source of covariant momentum, half the contravariant stress tensor contracted
with the derivative of the metric along that coordinate; it mentions neither the connection nor mixed tensors.
-/

set_option linter.unusedSectionVars false

namespace Nubhlight.Fluid
open Nubhlight.Metric (connFunc dgcov IsInverse)

/-- The contravariant stress tensor of a magnetised ideal fluid. -/
noncomputable def Tcontra (G : Geom) (r u p : ℝ) (uc bc : V4) (mu nu : Fin 4) : ℝ :=
  (r + u + p + ip G bc bc) * uc mu * uc nu + (p + ip G bc bc / 2) * G.gcon mu nu - bc mu * bc nu

/-- What the source term must be: `½ √-g T^{μν} ∂_l g_{μν}`. -/
noncomputable def sourceSpec (G : Geom) (T : Fin 4 → Fin 4 → ℝ) (dg : Fin 4 → Fin 4 → Fin 4 → ℝ) (l : Fin 4) : ℝ :=
  G.g * (1 / 2 * ∑ mu, ∑ nu, T mu nu * dg mu nu l)

/-- `conn` is a torsion-free connection whose covariant derivative of the metric vanishes, for metric derivatives `dg`. -/
structure LeviCivita (gcov : M4) (dg conn : Fin 4 → Fin 4 → Fin 4 → ℝ) : Prop where
  torsionFree : ∀ i j k, conn i j k = conn i k j
  compatible : ∀ i j k, dg i j k = ∑ l, gcov i l * conn l j k + ∑ l, gcov j l * conn l i k

/-- The code's connection is of that kind. -/
theorem connFunc_leviCivita (gf : V4 → M4) (hg : ∀ X i j, gf X i j = gf X j i) (X : V4) (gcov gcon : M4)
    (hinv : IsInverse gcov gcon) : LeviCivita gcov (dgcov gf X) (connFunc gf X gcon) :=
  ⟨fun i j k => Metric.C27_symmetric gf hg X gcon i j k, fun i j k => Metric.C27_compatible gf hg X gcov gcon hinv i j k⟩

theorem contract_symm (G : Geom) (h : G.Valid) (T : M4) (S : Fin 4 → Fin 4 → ℝ) (hS : ∀ i j, S i j = S j i)
    (hT : ∀ i j, T i j = ∑ k, S i k * G.gcov k j) (dg conn : Fin 4 → Fin 4 → Fin 4 → ℝ)
    (hc : LeviCivita G.gcov dg conn) (l : Fin 4) :
    ∑ mu, ∑ nu, T mu nu * conn nu l mu = 1 / 2 * ∑ mu, ∑ nu, S mu nu * dg mu nu l := by
  have e1 : ∑ mu, ∑ nu, T mu nu * conn nu l mu = ∑ mu, ∑ k, S mu k * ∑ nu, G.gcov k nu * conn nu l mu := by
    refine Finset.sum_congr rfl fun mu _ => ?_
    simp only [hT, Finset.sum_mul, Finset.mul_sum]
    rw [Finset.sum_comm]
    refine Finset.sum_congr rfl fun k _ => Finset.sum_congr rfl fun nu _ => ?_
    ring
  have e2 : ∑ mu, ∑ k, S mu k * ∑ nu, G.gcov k nu * conn nu l mu
      = ∑ mu, ∑ k, S mu k * ∑ nu, G.gcov mu nu * conn nu l k := by
    rw [Finset.sum_comm]
    refine Finset.sum_congr rfl fun k _ => Finset.sum_congr rfl fun mu _ => ?_
    rw [hS]
  have e3 : ∑ mu, ∑ nu, S mu nu * dg mu nu l = ∑ mu, ∑ k, S mu k * ∑ nu, G.gcov mu nu * conn nu l k
      + ∑ mu, ∑ k, S mu k * ∑ nu, G.gcov k nu * conn nu l mu := by
    rw [← Finset.sum_add_distrib]
    refine Finset.sum_congr rfl fun mu _ => ?_
    rw [← Finset.sum_add_distrib]
    refine Finset.sum_congr rfl fun k _ => ?_
    rw [hc.compatible]
    simp only [fun n => hc.torsionFree n l k, fun n => hc.torsionFree n l mu]
    ring
  rw [e1, e3, e2]
  ring

/-- **C80 (value).** For every state with a physical velocity, every geometry and every torsion-free metric connection, the
sources of energy and momentum are `½ √-g T^{μν} ∂_l g_{μν}`; mass and magnetic field get no source. -/
theorem C80_source (small : ℝ) (pres : ℝ → ℝ → ℝ) (P : Prim) (G : Geom) (h : G.Valid)
    (hq : 0 ≤ ip G (spatial P) (spatial P)) (dg conn : Fin 4 → Fin 4 → Fin 4 → ℝ) (hc : LeviCivita G.gcov dg conn) :
    let r := |P 0| + small
    let T := Tcontra G r (P 1) (pres r (P 1)) (getState P G).ucon (getState P G).bcon
    (source small pres P G conn 0 = 0 ∧ source small pres P G conn 5 = 0 ∧ source small pres P G conn 6 = 0
      ∧ source small pres P G conn 7 = 0) ∧
    source small pres P G conn 1 = sourceSpec G T dg 0 ∧ source small pres P G conn 2 = sourceSpec G T dg 1 ∧
    source small pres P G conn 3 = sourceSpec G T dg 2 ∧ source small pres P G conn 4 = sourceSpec G T dg 3 := by
  intro r T
  have hp := getState_physical G h P hq
  have hT : ∀ i j, mhdCalc small pres P i false (getState P G) j = ∑ k, T i k * G.gcov k j := by
    intro i j
    have eu := congrFun hp.ucov j
    have eb := congrFun hp.bcov j
    have hbb : dot (getState P G).bcon (getState P G).bcov = ip G (getState P G).bcon (getState P G).bcon := by
      rw [hp.bcov, dot_lower]
    have hgg : ∑ k, G.gcon i k * G.gcov k j = if i = j then 1 else 0 := by
      have := h.inv j i
      simp only [eq_comm (a := j)] at this
      rw [← this]
      refine Finset.sum_congr rfl fun k _ => ?_
      rw [h.symCon i k, h.sym k j]; ring
    simp only [mhdCalc, hbb, Bool.false_eq_true, if_false, ← hgg, eu, eb, lower, T, Tcontra, Fin.sum_univ_four]
    rw [h.sym j 0, h.sym j 1, h.sym j 2, h.sym j 3]
    ring
  have hS : ∀ i j, T i j = T j i := by
    intro i j
    simp only [T, Tcontra, h.symCon i j]
    ring
  have key := fun l => contract_symm G h (fun mu => mhdCalc small pres P mu false (getState P G)) T hS hT dg conn hc l
  refine ⟨⟨?_, ?_, ?_, ?_⟩, ?_, ?_, ?_, ?_⟩
  · simp [source]
  · simp [source]
  · simp [source]
  · simp [source]
  · have e : source small pres P G conn 1
        = (∑ mu, ∑ nu, mhdCalc small pres P mu false (getState P G) nu * conn nu 0 mu) * G.g := by simp [source]
    rw [e, key, sourceSpec]; ring
  · have e : source small pres P G conn 2
        = (∑ mu, ∑ nu, mhdCalc small pres P mu false (getState P G) nu * conn nu 1 mu) * G.g := by simp [source]
    rw [e, key, sourceSpec]; ring
  · have e : source small pres P G conn 3
        = (∑ mu, ∑ nu, mhdCalc small pres P mu false (getState P G) nu * conn nu 2 mu) * G.g := by simp [source]
    rw [e, key, sourceSpec]; ring
  · have e : source small pres P G conn 4
        = (∑ mu, ∑ nu, mhdCalc small pres P mu false (getState P G) nu * conn nu 3 mu) * G.g := by simp [source]
    rw [e, key, sourceSpec]; ring

/-- **C80 (symmetry).** If the metric the code is given does not depend on coordinate `l`, geometry neither creates nor
destroys the corresponding conserved quantity: `l = 0` is energy in a stationary metric, `l = 3` angular momentum in an
axisymmetric one. The connection is the one the code computes by differencing. -/
theorem C80_ignorable (small : ℝ) (pres : ℝ → ℝ → ℝ) (P : Prim) (G : Geom) (h : G.Valid)
    (hq : 0 ≤ ip G (spatial P) (spatial P)) (gf : V4 → M4) (hg : ∀ X i j, gf X i j = gf X j i) (X : V4) (l : Fin 4)
    (hl : ∀ s, gf (Function.update X l s) = gf X) :
    source small pres P G (connFunc gf X G.gcon) (l.succ.castLE (by omega)) = 0 := by
  have hinv : IsInverse G.gcov G.gcon := by
    refine ⟨h.inv, fun i j => ?_⟩
    have := h.inv j i
    simp only [eq_comm (a := j)] at this
    rw [← this]
    refine Finset.sum_congr rfl fun k _ => ?_
    rw [h.symCon i k, h.sym k j]; ring
  have hc := connFunc_leviCivita gf hg X G.gcov G.gcon hinv
  have h0 : ∀ i j, dgcov gf X i j l = 0 := by
    intro i j; unfold dgcov; simp [hl]
  obtain ⟨-, h1, h2, h3, h4⟩ := C80_source small pres P G h hq _ _ hc
  fin_cases l
  · refine h1.trans ?_; simp only [sourceSpec]; simp_all
  · refine h2.trans ?_; simp only [sourceSpec]; simp_all
  · refine h3.trans ?_; simp only [sourceSpec]; simp_all
  · refine h4.trans ?_; simp only [sourceSpec]; simp_all

/-- Non-vacuity: a metric changing along `X1` only, with its one non-zero connection coefficient. -/
example : LeviCivita Metric.minkowski (fun i j k => if i = 1 ∧ j = 1 ∧ k = 1 then 2 else 0)
    (fun i j k => if i = 1 ∧ j = 1 ∧ k = 1 then 1 else 0) := by
  refine ⟨fun i j k => ?_, fun i j k => ?_⟩
  · fin_cases i <;> fin_cases j <;> fin_cases k <;> simp
  · fin_cases i <;> fin_cases j <;> fin_cases k <;> simp [Fin.sum_univ_four, Metric.minkowski] <;> norm_num

end Nubhlight.Fluid
