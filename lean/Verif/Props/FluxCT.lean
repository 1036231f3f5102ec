import Verif.Model.FluxCT
import Mathlib.Tactic.FieldSimp
import Mathlib.Tactic.Ring
import Mathlib.Tactic.NormNum
import Mathlib.Data.Rat.Defs
import Mathlib.Algebra.Order.Ring.Rat

set_option autoImplicit false

/-! # C01: constrained transport keeps the measured divergence fixed -/

namespace Nubhlight.FluxCT

variable {K : Type*} [Field K]

/-- Interior corner: all eight zones meeting there are active. -/
def InteriorCorner (d : Dims) (i j k : ℤ) : Prop :=
  1 ≤ i ∧ i ≤ d.n1 - 1 ∧ 1 ≤ j ∧ j ≤ d.n2 - 1 ∧ 1 ≤ k ∧ k ≤ d.n3 - 1

theorem inBox_eq_true {a b c d e f i j k : ℤ} :
    inBox a b c d e f i j k = true ↔ (a ≤ i ∧ i ≤ b) ∧ (c ≤ j ∧ j ≤ d) ∧ (e ≤ k ∧ k ≤ f) := by
  simp [inBox]; tauto

theorem bZone_mul_g (dx : Spacing K) (Dt g B a a' b b' c c' : K) (hg : g ≠ 0) :
    bZone dx Dt g B a a' b b' c c' * g
      = g * B + Dt * (-(a - a') / dx.d1 - (b - b') / dx.d2 - (c - c') / dx.d3) := by
  unfold bZone; rw [div_mul_cancel₀ _ hg, add_zero]

/-- One update: the corner divergence of the new field equals that of the field the update started from. -/
theorem advance_divb (d : Dims) (dx : Spacing K) (Dt : K) (g : ℤ → ℤ → K) (hg : ∀ i j, g i j ≠ 0)
    (Pi Pf : BArr K) (F : Fluxes K) (old : Emf K) (i j k : ℤ) (h : InteriorCorner d i j k) :
    divb dx g (advanceB d dx Dt g Pi Pf (fluxCT d F old)) i j k = divb dx g Pi i j k := by
  obtain ⟨h1, h2, h3, h4, h5, h6⟩ := h
  have e1 : i - 1 + 1 = i := by ring
  have e2 : j - 1 + 1 = j := by ring
  have e3 : k - 1 + 1 = k := by ring
  have B : ∀ i' j' k' : ℤ, (i' = i ∨ i' = i-1) → (j' = j ∨ j' = j-1) → (k' = k ∨ k' = k-1) →
      inBox 0 (d.n1-1) 0 (d.n2-1) 0 (d.n3-1) i' j' k' = true := by
    intro i' j' k' hi hj hk; rw [inBox_eq_true]; omega
  have A1 : ∀ i' j' k' : ℤ, (i' = i ∨ i' = i-1 ∨ i' = i+1) → (j' = j ∨ j' = j-1) → (k' = k ∨ k' = k-1) →
      inBox 0 d.n1 0 (d.n2-1) 0 (d.n3-1) i' j' k' = true := by
    intro i' j' k' hi hj hk; rw [inBox_eq_true]; omega
  have A2 : ∀ i' j' k' : ℤ, (i' = i ∨ i' = i-1) → (j' = j ∨ j' = j-1 ∨ j' = j+1) → (k' = k ∨ k' = k-1) →
      inBox 0 (d.n1-1) 0 d.n2 0 (d.n3-1) i' j' k' = true := by
    intro i' j' k' hi hj hk; rw [inBox_eq_true]; omega
  have A3 : ∀ i' j' k' : ℤ, (i' = i ∨ i' = i-1) → (j' = j ∨ j' = j-1) → (k' = k ∨ k' = k-1 ∨ k' = k+1) →
      inBox 0 (d.n1-1) 0 (d.n2-1) 0 d.n3 i' j' k' = true := by
    intro i' j' k' hi hj hk; rw [inBox_eq_true]; omega
  unfold divb advanceB
  simp only [B, true_or, or_true, if_true, bZone_mul_g _ _ _ _ _ _ _ _ _ _ (hg _ _)]
  simp only [fluxCT, e1, e2, e3, A1, A2, A3, true_or, or_true, if_true]
  generalize emfCalc d F old = e
  ring

/-- A ghost fill does not change the divergence at interior corners. -/
theorem fillGhost_divb (d : Dims) (dx : Spacing K) (g : ℤ → ℤ → K) (ghost P : BArr K) (i j k : ℤ)
    (h : InteriorCorner d i j k) : divb dx g (fillGhost d ghost P) i j k = divb dx g P i j k := by
  obtain ⟨h1, h2, h3, h4, h5, h6⟩ := h
  have B : ∀ i' j' k' : ℤ, (i' = i ∨ i' = i-1) → (j' = j ∨ j' = j-1) → (k' = k ∨ k' = k-1) →
      inBox 0 (d.n1-1) 0 (d.n2-1) 0 (d.n3-1) i' j' k' = true := by
    intro i' j' k' hi hj hk; rw [inBox_eq_true]; omega
  unfold divb fillGhost
  simp only [B, true_or, or_true, if_true]

/-- **C01.** For every grid size, geometry with nonvanishing `g`, spacing, and every history of steps (each
with arbitrary time step, arbitrary face fluxes, arbitrary ghost data and arbitrary stale work arrays) the
divergence measured by the code at an interior corner equals its initial value, after the whole history and
also for the half-step state of one more step. -/
theorem C01_divb_preserved {K : Type*} [Field K] [LinearOrder K] (d : Dims) (dx : Spacing K)
    (g : ℤ → ℤ → K) (hg : ∀ i j, g i j ≠ 0) (P0 : BArr K) (hist : List (StepData K)) (next : StepData K)
    (i j k : ℤ) (h : InteriorCorner d i j k) :
    fluxCtDivb dx g (hist.foldl (stepB d dx g) P0) i j k = fluxCtDivb dx g P0 i j k ∧
    fluxCtDivb dx g (predictorB d dx g next (hist.foldl (stepB d dx g) P0)) i j k
      = fluxCtDivb dx g P0 i j k := by
  have key : ∀ (hist : List (StepData K)) (P : BArr K),
      divb dx g (hist.foldl (stepB d dx g) P) i j k = divb dx g P i j k := by
    intro hist
    induction hist with
    | nil => intro P; rfl
    | cons s t ih =>
      intro P
      rw [List.foldl_cons, ih]
      unfold stepB
      rw [fillGhost_divb d dx g _ _ i j k h, advance_divb d dx _ g hg _ _ _ _ i j k h]
  refine ⟨by unfold fluxCtDivb; rw [key], ?_⟩
  unfold fluxCtDivb predictorB
  rw [fillGhost_divb d dx g _ _ i j k h, advance_divb d dx _ g hg _ _ _ _ i j k h, key]

/-- **C01, consistency.** A spatially uniform electric field (fluxes antisymmetric, `F_a[B_b] = -F_b[B_a]`)
is reproduced exactly on every face the update uses: the corner averaging does not alter exact fluxes. -/
theorem C01_ct_consistent [CharZero K] (d : Dims) (F : Fluxes K) (old : Emf K) (e1 e2 e3 : K)
    (h12 : ∀ i j k, F.f1.b2 i j k = e3) (h21 : ∀ i j k, F.f2.b1 i j k = -e3)
    (h13 : ∀ i j k, F.f1.b3 i j k = -e2) (h31 : ∀ i j k, F.f3.b1 i j k = e2)
    (h23 : ∀ i j k, F.f2.b3 i j k = e1) (h32 : ∀ i j k, F.f3.b2 i j k = -e1)
    (h11 : ∀ i j k, F.f1.b1 i j k = 0) (h22 : ∀ i j k, F.f2.b2 i j k = 0)
    (h33 : ∀ i j k, F.f3.b3 i j k = 0) :
    fluxCT d F old = F := by
  have E3 : ∀ i j k, inBox 0 d.n1 0 d.n2 0 d.n3 i j k = true → (emfCalc d F old).e3 i j k = e3 := by
    intro i j k hb; simp only [emfCalc, hb, if_true, h12, h21]; ring
  have E2 : ∀ i j k, inBox 0 d.n1 0 d.n2 0 d.n3 i j k = true → (emfCalc d F old).e2 i j k = e2 := by
    intro i j k hb; simp only [emfCalc, hb, if_true, h13, h31]; ring
  have E1 : ∀ i j k, inBox 0 d.n1 0 d.n2 0 d.n3 i j k = true → (emfCalc d F old).e1 i j k = e1 := by
    intro i j k hb; simp only [emfCalc, hb, if_true, h23, h32]; ring
  have w : ∀ {i j k i' j' k' : ℤ} {a b c a' b' c' : ℤ},
      inBox 0 a 0 b 0 c i j k = true → (i' = i ∨ i' = i + 1 ∧ a + 1 ≤ a') → (j' = j ∨ j' = j + 1 ∧ b + 1 ≤ b') →
      (k' = k ∨ k' = k + 1 ∧ c + 1 ≤ c') → a ≤ a' → b ≤ b' → c ≤ c' →
      inBox 0 a' 0 b' 0 c' i' j' k' = true := by
    intro i j k i' j' k' a b c a' b' c' hb hi hj hk ha hb' hc
    rw [inBox_eq_true] at *; omega
  rcases F with ⟨⟨a1, a2, a3⟩, ⟨b1, b2, b3⟩, ⟨c1, c2, c3⟩⟩
  simp only at *
  simp only [fluxCT, Fluxes.mk.injEq, BArr.mk.injEq]
  refine ⟨⟨?_, ?_, ?_⟩, ⟨?_, ?_, ?_⟩, ⟨?_, ?_, ?_⟩⟩ <;> funext i j k <;> split_ifs with hb <;> try rfl
  · rw [h11]
  · rw [E3 _ _ _ (w hb (by omega) (by omega) (by omega) (by omega) (by omega) (by omega)),
      E3 _ _ _ (w hb (by omega) (by omega) (by omega) (by omega) (by omega) (by omega)), h12]; ring
  · rw [E2 _ _ _ (w hb (by omega) (by omega) (by omega) (by omega) (by omega) (by omega)),
      E2 _ _ _ (w hb (by omega) (by omega) (by omega) (by omega) (by omega) (by omega)), h13]; ring
  · rw [E3 _ _ _ (w hb (by omega) (by omega) (by omega) (by omega) (by omega) (by omega)),
      E3 _ _ _ (w hb (by omega) (by omega) (by omega) (by omega) (by omega) (by omega)), h21]; ring
  · rw [h22]
  · rw [E1 _ _ _ (w hb (by omega) (by omega) (by omega) (by omega) (by omega) (by omega)),
      E1 _ _ _ (w hb (by omega) (by omega) (by omega) (by omega) (by omega) (by omega)), h23]; ring
  · rw [E2 _ _ _ (w hb (by omega) (by omega) (by omega) (by omega) (by omega) (by omega)),
      E2 _ _ _ (w hb (by omega) (by omega) (by omega) (by omega) (by omega) (by omega)), h31]; ring
  · rw [E1 _ _ _ (w hb (by omega) (by omega) (by omega) (by omega) (by omega) (by omega)),
      E1 _ _ _ (w hb (by omega) (by omega) (by omega) (by omega) (by omega) (by omega)), h32]; ring
  · rw [h33]

/-- Non-vacuity of C01: a 4×4×4 grid with a nonuniform geometry has interior corners, and a concrete flux
array changes the field there. -/
example : InteriorCorner ⟨4, 4, 4⟩ 2 1 3 := by unfold InteriorCorner; decide

example : ∃ (F : Fluxes ℚ), (advanceB ⟨4,4,4⟩ ⟨1,1,1⟩ 1 (fun _ _ => 2) ⟨fun _ _ _ => 0, fun _ _ _ => 0, fun _ _ _ => 0⟩
      ⟨fun _ _ _ => 0, fun _ _ _ => 0, fun _ _ _ => 0⟩
      (fluxCT ⟨4,4,4⟩ F ⟨fun _ _ _ => 0, fun _ _ _ => 0, fun _ _ _ => 0⟩)).b2 2 2 2 ≠ 0 :=
  ⟨⟨⟨fun _ _ _ => 0, fun i _ _ => i * i, fun _ _ _ => 0⟩, ⟨fun _ _ _ => 0, fun _ _ _ => 0, fun _ _ _ => 0⟩,
    ⟨fun _ _ _ => 0, fun _ _ _ => 0, fun _ _ _ => 0⟩⟩, by
    norm_num [advanceB, fluxCT, emfCalc, bZone, inBox]⟩

end Nubhlight.FluxCT
