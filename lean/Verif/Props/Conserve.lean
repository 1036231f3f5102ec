import Verif.Model.Conserve
import Mathlib.Tactic.Ring
import Mathlib.Algebra.BigOperators.Field
import Mathlib.Tactic.NormNum
import Mathlib.Algebra.Order.Ring.Rat

set_option autoImplicit false

/-! # C02: the finite-volume update is conservative -/

namespace Nubhlight.Conserve

open Finset

variable {K : Type*} [Field K]

theorem telescope (n : ℕ) (f : ℤ → K) : ∑ i ∈ range n, (f ((i:ℤ)+1) - f i) = f n - f 0 := by
  induction n with
  | zero => simp
  | succ n ih => rw [sum_range_succ, ih]; push_cast; ring

/-- **C02, budget.** The total after the update is the total before, plus `Dt` times the summed sources,
minus `Dt` times the net flux through the outer faces. -/
theorem C02_budget (n1 n2 n3 : ℕ) (Dt d1 d2 d3 : K) (U F1 F2 F3 dU : ℤ → ℤ → ℤ → K) :
    total n1 n2 n3 (updZone Dt d1 d2 d3 U F1 F2 F3 dU) =
      total n1 n2 n3 U + Dt * total n1 n2 n3 dU
      - Dt * ((∑ j ∈ range n2, ∑ k ∈ range n3, (F1 n1 j k - F1 0 j k)) / d1
            + (∑ i ∈ range n1, ∑ k ∈ range n3, (F2 i n2 k - F2 i 0 k)) / d2
            + (∑ i ∈ range n1, ∑ j ∈ range n2, (F3 i j n3 - F3 i j 0)) / d3) := by
  have t1 : ∑ j ∈ range n2, ∑ k ∈ range n3, (F1 n1 j k - F1 0 j k)
      = ∑ i ∈ range n1, ∑ j ∈ range n2, ∑ k ∈ range n3, (F1 ((i:ℤ)+1) j k - F1 i j k) := by
    rw [sum_comm (s := range n1)]
    refine sum_congr rfl fun j _ => ?_
    rw [sum_comm (s := range n1)]
    exact sum_congr rfl fun k _ => (telescope n1 (fun i => F1 i j k)).symm
  have t2 : ∑ i ∈ range n1, ∑ k ∈ range n3, (F2 i n2 k - F2 i 0 k)
      = ∑ i ∈ range n1, ∑ j ∈ range n2, ∑ k ∈ range n3, (F2 i ((j:ℤ)+1) k - F2 i j k) := by
    refine sum_congr rfl fun i _ => ?_
    rw [sum_comm (s := range n2)]
    exact sum_congr rfl fun k _ => (telescope n2 (fun j => F2 i j k)).symm
  have t3 : ∑ i ∈ range n1, ∑ j ∈ range n2, (F3 i j n3 - F3 i j 0)
      = ∑ i ∈ range n1, ∑ j ∈ range n2, ∑ k ∈ range n3, (F3 i j ((k:ℤ)+1) - F3 i j k) := by
    refine sum_congr rfl fun i _ => sum_congr rfl fun j _ => ?_
    exact (telescope n3 (fun k => F3 i j k)).symm
  rw [t1, t2, t3]
  unfold total updZone
  simp only [sum_div, mul_add, mul_sum, ← sum_add_distrib, ← sum_sub_distrib]
  refine sum_congr rfl fun i _ => sum_congr rfl fun j _ => sum_congr rfl fun k _ => ?_
  ring

/-- State periodic with period `n`: what `bound_prim` establishes on a periodic axis (property C18). -/
def Periodic {S : Type*} (n : ℕ) (P : ℤ → S) : Prop := ∀ i, P (i + n) = P i

omit [Field K] in
/-- The flux through the first and the last face of a periodic axis agree. -/
theorem faceFlux_periodic {S : Type*} (num : (Fin 6 → S) → K) (n : ℕ) (P : ℤ → S) (hP : Periodic n P) :
    faceFlux num P n = faceFlux num P 0 := by
  unfold faceFlux
  congr 1
  funext m
  have := hP (0 - 3 + (m:ℤ))
  rw [← this]; congr 1; ring

/-- One substep's data on a triply periodic grid without sources: the three numerical flux functions, the
zone states the fluxes are computed from, and the time step. -/
structure PeriodicStep (S K : Type*) where
  Dt : K
  num1 : (Fin 6 → S) → K
  num2 : (Fin 6 → S) → K
  num3 : (Fin 6 → S) → K
  P : ℤ → ℤ → ℤ → S

/-- The update performed with those data. -/
def PeriodicStep.apply {S : Type*} (d1 d2 d3 : K) (U : ℤ → ℤ → ℤ → K) (s : PeriodicStep S K) :
    ℤ → ℤ → ℤ → K :=
  updZone s.Dt d1 d2 d3 U (fun i j k => faceFlux s.num1 (fun i' => s.P i' j k) i)
    (fun i j k => faceFlux s.num2 (fun j' => s.P i j' k) j)
    (fun i j k => faceFlux s.num3 (fun k' => s.P i j k') k) (fun _ _ _ => 0)

/-- The ghost zones of the step's data are periodic images in each direction. -/
def PeriodicStep.Ok {S : Type*} (n1 n2 n3 : ℕ) (s : PeriodicStep S K) : Prop :=
  (∀ j k, Periodic n1 (fun i => s.P i j k)) ∧ (∀ i k, Periodic n2 (fun j => s.P i j k)) ∧
  (∀ i j, Periodic n3 (fun k => s.P i j k))

/-- **C02, periodic.** On a periodic source-free grid the total of every conserved variable is unchanged by
any number of updates, with any numerical flux functions of the six-zone stencil. -/
theorem C02_periodic_conserved {S : Type*} (n1 n2 n3 : ℕ) (d1 d2 d3 : K) (U0 : ℤ → ℤ → ℤ → K)
    (hist : List (PeriodicStep S K)) (hok : ∀ s ∈ hist, s.Ok n1 n2 n3) :
    total n1 n2 n3 (hist.foldl (PeriodicStep.apply d1 d2 d3) U0) = total n1 n2 n3 U0 := by
  induction hist generalizing U0 with
  | nil => rfl
  | cons s t ih =>
    rw [List.foldl_cons, ih _ (fun x hx => hok x (List.mem_cons_of_mem _ hx))]
    obtain ⟨p1, p2, p3⟩ := hok s List.mem_cons_self
    unfold PeriodicStep.apply
    rw [C02_budget]
    simp only [faceFlux_periodic _ _ _ (p1 _ _), faceFlux_periodic _ _ _ (p2 _ _),
      faceFlux_periodic _ _ _ (p3 _ _), sub_self, sum_const_zero, zero_div, add_zero, mul_zero, sub_zero]
    simp [total]

/-- **C02, decomposition.** When the grid is split between two ranks in one direction and each holds the same
(ghost-exchanged) data around the common face, both compute the same flux there, so nothing is created or lost
at the interface: the two partial sums add up to the budget of the whole. -/
theorem C02_rank_interface {S : Type*} (num : (Fin 6 → S) → K) (m n : ℕ) (Dt d : K) (P PL PR : ℤ → S)
    (U : ℤ → K)
    (hL : ∀ i : ℤ, -3 ≤ i → i < m + 3 → PL i = P i)
    (hR : ∀ i : ℤ, -3 ≤ i → i < n + 3 → PR i = P (i + m)) :
    (∑ i ∈ range m, (U i + Dt * (-(faceFlux num PL ((i:ℤ)+1) - faceFlux num PL i) / d)))
    + (∑ i ∈ range n, (U ((i:ℤ) + m) + Dt * (-(faceFlux num PR ((i:ℤ)+1) - faceFlux num PR i) / d)))
    = (∑ i ∈ range (m + n), U i) - Dt * (faceFlux num P ((m:ℤ) + n) - faceFlux num P 0) / d := by
  have e : ∀ (n : ℕ) (V : ℤ → K) (f : ℤ → K), ∑ i ∈ range n, (V i + Dt * (-(f ((i:ℤ)+1) - f i) / d))
      = ∑ i ∈ range n, V i - Dt * (f n - f 0) / d := by
    intro n V f
    rw [← telescope n f, mul_sum, sum_div, ← sum_sub_distrib]
    refine sum_congr rfl fun i _ => by ring
  rw [e m U (faceFlux num PL), e n (fun i => U (i + m)) (faceFlux num PR), sum_range_add]
  have l0 : faceFlux num PL 0 = faceFlux num P 0 := by
    unfold faceFlux; congr 1; funext x; apply hL <;> omega
  have l1 : faceFlux num PL m = faceFlux num P m := by
    unfold faceFlux; congr 1; funext x; apply hL <;> omega
  have r0 : faceFlux num PR 0 = faceFlux num P m := by
    unfold faceFlux; congr 1; funext x; rw [hR _ (by omega) (by omega)]; congr 1; ring
  have r1 : faceFlux num PR n = faceFlux num P ((m:ℤ)+n) := by
    unfold faceFlux; congr 1; funext x; rw [hR _ (by omega) (by omega)]; congr 1; ring
  rw [l0, l1, r0, r1]
  push_cast
  have : ∑ x ∈ range n, U ((m:ℤ) + x) = ∑ i ∈ range n, U ((i:ℤ)+m) :=
    sum_congr rfl fun i _ => by rw [add_comm]
  rw [this]; ring

/-- Non-vacuity: a periodic step on a 2×2×2 grid whose flux is not constant. -/
example : PeriodicStep.Ok 2 2 2 (K := ℚ)
    ⟨1, fun s => s 2, fun s => s 3, fun s => s 0, fun i j k => ((i + j + k) % 2 : ℤ)⟩ := by
  refine ⟨fun j k i => ?_, fun i k j => ?_, fun i j k => ?_⟩ <;> simp only <;> congr 1 <;> omega

end Nubhlight.Conserve
