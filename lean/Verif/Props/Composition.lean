import Verif.Model.Composition
import Verif.Props.EosTable
import Mathlib.Tactic.Linarith
import Mathlib.Tactic.Ring
import Mathlib.Tactic.NormNum

set_option autoImplicit false
set_option linter.unusedSectionVars false

/-!
# The composition handed to the opacities (C165)
-/

namespace Nubhlight.Composition
open Nubhlight.EosTable Nubhlight.Util

variable {K : Type*} [Field K] [LinearOrder K] [IsStrictOrderedRing K] [FloorRing K]

/-- All six tables store functions of the node. -/
structure Full (X : Axes K) (t : Tables K) (fa fh fn fp fA fZ : ℕ → ℕ → ℕ → K) : Prop where
  a : Stores X t.Xa fa
  h : Stores X t.Xh fh
  n : Stores X t.Xn fn
  p : Stores X t.Xp fp
  A : Stores X t.Abar fA
  Z : Stores X t.Zbar fZ

/-- The cell of a query does not depend on the table. -/
theorem one_cell (X : Axes K) (hX : X.Even) (lrho lT ye : K) (hr : lrho ≠ X.r.hi) :
    ∃ i j k : ℕ, (i + 1 < X.r.n ∧ j + 1 < X.t.n ∧ k + 1 < X.y.n) ∧
      (∀ (tab : List K) (f : ℕ → ℕ → ℕ → K), Stores X tab f → interp3 X tab lrho lT ye = some (cellValue X f i j k lrho lT ye)) ∧
      (X.r.lo ≤ lrho → lrho ≤ X.r.hi → X.r.In i lrho) ∧ (X.t.lo ≤ lT → lT ≤ X.t.hi → X.t.In j lT) ∧
      (X.y.lo ≤ ye → ye ≤ X.y.hi → X.y.In k ye) := by
  obtain ⟨i, hi, ei, ci⟩ := clamp_cell hX.r lrho
  obtain ⟨j, hj, ej, cj⟩ := clamp_cell hX.t lT
  obtain ⟨k, hk, ek, ck⟩ := clamp_cell hX.y ye
  refine ⟨i, j, k, ⟨hi, hj, hk⟩, fun tab f hs => ?_, ci, cj, ck⟩
  have g' : ∀ (a b c : ℕ) (a' b' c' : ℤ), a < X.r.n → b < X.t.n → c < X.y.n → a' = a → b' = b → c' = c →
      rd tab (elem X a' b' c') = some (f a b c) := by
    rintro a b c _ _ _ h1 h2 h3 rfl rfl rfl; exact hs.get a b c h1 h2 h3
  unfold interp3
  simp only [clampLrho_eq hr, ei, ej, ek]
  rw [if_neg (by have := hX.r.pos.ne'; have := hX.t.pos.ne'; have := hX.y.pos.ne'; tauto)]
  rw [hX.r.node i (by omega), hX.t.node j (by omega), hX.y.node k (by omega)]
  rw [g' i j k i j k (by omega) (by omega) (by omega) rfl rfl rfl,
    g' (i + 1) j k (i + 1) j k (by omega) (by omega) (by omega) (by push_cast; rfl) rfl rfl,
    g' i (j + 1) k i (j + 1) k (by omega) (by omega) (by omega) rfl (by push_cast; rfl) rfl,
    g' (i + 1) (j + 1) k (i + 1) (j + 1) k (by omega) (by omega) (by omega) (by push_cast; rfl) (by push_cast; rfl) rfl,
    g' i j (k + 1) i j (k + 1) (by omega) (by omega) (by omega) rfl rfl (by push_cast; rfl),
    g' (i + 1) j (k + 1) (i + 1) j (k + 1) (by omega) (by omega) (by omega) (by push_cast; rfl) rfl (by push_cast; rfl),
    g' i (j + 1) (k + 1) i (j + 1) (k + 1) (by omega) (by omega) (by omega) rfl (by push_cast; rfl) (by push_cast; rfl),
    g' (i + 1) (j + 1) (k + 1) (i + 1) (j + 1) (k + 1) (by omega) (by omega) (by omega) (by push_cast; rfl)
      (by push_cast; rfl) (by push_cast; rfl)]
  simp only [Option.bind_some]
  congr 1
  unfold cellValue mix Axis.at
  ring

theorem cell_mem {X : Axes K} (hX : X.Even) {i j k : ℕ} {lrho lT ye : K} (ci : X.r.In i lrho) (cj : X.t.In j lT) (ck : X.y.In k ye)
    (f : ℕ → ℕ → ℕ → K) (lo hi : K) (hf : ∀ a b c : ℕ, a ≤ i + 1 → b ≤ j + 1 → c ≤ k + 1 → lo ≤ f a b c ∧ f a b c ≤ hi) :
    lo ≤ cellValue X f i j k lrho lT ye ∧ cellValue X f i j k lrho lT ye ≤ hi := by
  obtain ⟨a0, a1⟩ := weight_range hX.r ci
  obtain ⟨b0, b1⟩ := weight_range hX.t cj
  obtain ⟨c0, c1⟩ := weight_range hX.y ck
  unfold cellValue
  refine mix_mem c0 c1 (mix_mem b0 b1 (mix_mem a0 a1 ?_ ?_) (mix_mem a0 a1 ?_ ?_))
    (mix_mem b0 b1 (mix_mem a0 a1 ?_ ?_) (mix_mem a0 a1 ?_ ?_)) <;> exact hf _ _ _ (by omega) (by omega) (by omega)

/-! ## Specification -/

/-- A composition: fractions not negative that add up to one, nuclei with a positive mass number. -/
def Comp.Valid (c : Comp K) : Prop := (0 ≤ c.a ∧ 0 ≤ c.h ∧ 0 ≤ c.n ∧ 0 ≤ c.p) ∧ c.a + c.h + c.n + c.p = 1 ∧ 0 < c.A

/-- Its charge per nucleon: protons, half of the alpha particles, and the heavy nuclei with their mean charge per nucleon. -/
def Comp.charge (c : Comp K) : K := c.p + c.a / 2 + c.h * (c.Z / c.A)

/-- **C165 (fractions).** For every table whose nodes hold compositions and every query in the table below the upper density edge, the
fractions looked up are not negative and add up to one, so that none exceeds one, and the mean mass and charge numbers are within bounds of
the table. -/
theorem C165_fractions_partial (X : Axes K) (hX : X.Even) (t : Tables K) (fa fh fn fp fA fZ : ℕ → ℕ → ℕ → K) (ht : Full X t fa fh fn fp fA fZ)
    (hv : ∀ i j k : ℕ, i < X.r.n → j < X.t.n → k < X.y.n → Comp.Valid ⟨fa i j k, fh i j k, fn i j k, fp i j k, fA i j k, fZ i j k⟩)
    (lrho lT ye : K) (r0 : X.r.lo ≤ lrho) (r1 : lrho < X.r.hi) (t0 : X.t.lo ≤ lT) (t1 : lT ≤ X.t.hi) (y0 : X.y.lo ≤ ye) (y1 : ye ≤ X.y.hi) :
    ∃ c, composition X t lrho lT ye = some c ∧ (0 ≤ c.a ∧ c.a ≤ 1) ∧ (0 ≤ c.h ∧ c.h ≤ 1) ∧ (0 ≤ c.n ∧ c.n ≤ 1) ∧ (0 ≤ c.p ∧ c.p ≤ 1) ∧
      c.a + c.h + c.n + c.p = 1 ∧
      (∀ lo hi, (∀ i j k : ℕ, i < X.r.n → j < X.t.n → k < X.y.n → lo ≤ fA i j k ∧ fA i j k ≤ hi) → lo ≤ c.A ∧ c.A ≤ hi) ∧
      (∀ lo hi, (∀ i j k : ℕ, i < X.r.n → j < X.t.n → k < X.y.n → lo ≤ fZ i j k ∧ fZ i j k ≤ hi) → lo ≤ c.Z ∧ c.Z ≤ hi) := by
  obtain ⟨i, j, k, ⟨hi, hj, hk⟩, e, ci, cj, ck⟩ := one_cell X hX lrho lT ye r1.ne
  have M := fun f lo hi' => cell_mem hX (ci r0 r1.le) (cj t0 t1) (ck y0 y1) f lo hi'
  have B : ∀ {a b c : ℕ}, a ≤ i + 1 → b ≤ j + 1 → c ≤ k + 1 → Comp.Valid ⟨fa a b c, fh a b c, fn a b c, fp a b c, fA a b c, fZ a b c⟩ :=
    fun ha hb hc => hv _ _ _ (by omega) (by omega) (by omega)
  refine ⟨⟨cellValue X fa i j k lrho lT ye, cellValue X fh i j k lrho lT ye, cellValue X fn i j k lrho lT ye, cellValue X fp i j k lrho lT ye, cellValue X fA i j k lrho lT ye, cellValue X fZ i j k lrho lT ye⟩, ?_, M fa 0 1 ?_, M fh 0 1 ?_, M fn 0 1 ?_, M fp 0 1 ?_, ?_, ?_, ?_⟩
  · unfold composition
    rw [e _ _ ht.a, e _ _ ht.h, e _ _ ht.n, e _ _ ht.p, e _ _ ht.A, e _ _ ht.Z]
    rfl
  · intro a b c ha hb hc
    obtain ⟨⟨v1, v2, v3, v4⟩, v5, -⟩ := B ha hb hc
    simp only at *
    exact ⟨v1, by linarith⟩
  · intro a b c ha hb hc
    obtain ⟨⟨v1, v2, v3, v4⟩, v5, -⟩ := B ha hb hc
    simp only at *
    exact ⟨v2, by linarith⟩
  · intro a b c ha hb hc
    obtain ⟨⟨v1, v2, v3, v4⟩, v5, -⟩ := B ha hb hc
    simp only at *
    exact ⟨v3, by linarith⟩
  · intro a b c ha hb hc
    obtain ⟨⟨v1, v2, v3, v4⟩, v5, -⟩ := B ha hb hc
    simp only at *
    exact ⟨v4, by linarith⟩
  · have s : ∀ a b c : ℕ, a ≤ i + 1 → b ≤ j + 1 → c ≤ k + 1 → fp a b c = 1 - fa a b c - fh a b c - fn a b c := by
      intro a b c ha hb hc
      have v5 := (B ha hb hc).2.1
      simp only at v5
      linarith
    simp only
    unfold cellValue mix
    rw [s i j k (by omega) (by omega) (by omega), s (i + 1) j k (by omega) (by omega) (by omega), s i (j + 1) k (by omega) (by omega) (by omega),
      s (i + 1) (j + 1) k (by omega) (by omega) (by omega), s i j (k + 1) (by omega) (by omega) (by omega),
      s (i + 1) j (k + 1) (by omega) (by omega) (by omega), s i (j + 1) (k + 1) (by omega) (by omega) (by omega),
      s (i + 1) (j + 1) (k + 1) (by omega) (by omega) (by omega)]
    ring
  · intro lo hi' hb
    exact M fA lo hi' fun a b c ha hb' hc => hb a b c (by omega) (by omega) (by omega)
  · intro lo hi' hb
    exact M fZ lo hi' fun a b c ha hb' hc => hb a b c (by omega) (by omega) (by omega)

/-- **C165 (charge without heavy nuclei).** Where the nodes hold no heavy nuclei the charge looked up is the electron fraction asked for. -/
theorem C165_charge_partial (X : Axes K) (hX : X.Even) (t : Tables K) (fa fh fn fp fA fZ : ℕ → ℕ → ℕ → K) (ht : Full X t fa fh fn fp fA fZ)
    (h0 : ∀ i j k : ℕ, i < X.r.n → j < X.t.n → k < X.y.n → fh i j k = 0)
    (hq : ∀ i j k : ℕ, i < X.r.n → j < X.t.n → k < X.y.n → fp i j k + fa i j k / 2 = X.y.at k)
    (lrho lT ye : K) (hr : lrho ≠ X.r.hi) : ∃ c, composition X t lrho lT ye = some c ∧ c.charge = ye := by
  obtain ⟨i, j, k, ⟨hi, hj, hk⟩, e, -⟩ := one_cell X hX lrho lT ye hr
  refine ⟨⟨cellValue X fa i j k lrho lT ye, cellValue X fh i j k lrho lT ye, cellValue X fn i j k lrho lT ye, cellValue X fp i j k lrho lT ye, cellValue X fA i j k lrho lT ye, cellValue X fZ i j k lrho lT ye⟩, by unfold composition; rw [e _ _ ht.a, e _ _ ht.h, e _ _ ht.n, e _ _ ht.p, e _ _ ht.A, e _ _ ht.Z]; rfl, ?_⟩
  have z : cellValue X fh i j k lrho lT ye = 0 := by
    unfold cellValue mix
    rw [h0 i j k (by omega) (by omega) (by omega), h0 (i + 1) j k (by omega) (by omega) (by omega), h0 i (j + 1) k (by omega) (by omega) (by omega),
      h0 (i + 1) (j + 1) k (by omega) (by omega) (by omega), h0 i j (k + 1) (by omega) (by omega) (by omega),
      h0 (i + 1) j (k + 1) (by omega) (by omega) (by omega), h0 i (j + 1) (k + 1) (by omega) (by omega) (by omega),
      h0 (i + 1) (j + 1) (k + 1) (by omega) (by omega) (by omega)]
    ring
  unfold Comp.charge
  simp only
  rw [z, zero_mul, add_zero]
  have s : ∀ a b c : ℕ, a ≤ i + 1 → b ≤ j + 1 → c ≤ k + 1 → fp a b c = X.y.at c - fa a b c / 2 := by
    intro a b c ha hb hc
    have := hq a b c (by omega) (by omega) (by omega)
    linarith
  unfold cellValue mix
  rw [s i j k (by omega) (by omega) (by omega), s (i + 1) j k (by omega) (by omega) (by omega), s i (j + 1) k (by omega) (by omega) (by omega),
    s (i + 1) (j + 1) k (by omega) (by omega) (by omega), s i j (k + 1) (by omega) (by omega) (by omega),
    s (i + 1) j (k + 1) (by omega) (by omega) (by omega), s i (j + 1) (k + 1) (by omega) (by omega) (by omega),
    s (i + 1) (j + 1) (k + 1) (by omega) (by omega) (by omega)]
  have hd := hX.y.pos.ne'
  have e1 : X.y.at (k + 1) = X.y.at k + X.y.d := by unfold Axis.at; push_cast; ring
  rw [e1]
  have e2 : (ye - X.y.at k) / X.y.d * X.y.d = ye - X.y.at k := div_mul_cancel₀ _ hd
  generalize (ye - X.y.at k) / X.y.d = w at *
  have e3 : ye = X.y.at k + w * X.y.d := by rw [e2]; ring
  rw [e3]
  ring

/-- C165 as stated: also the charge of the composition is the electron fraction. -/
def FullC165 : Prop := ∀ (X : Axes ℚ), X.Even → ∀ (t : Tables ℚ) (fa fh fn fp fA fZ : ℕ → ℕ → ℕ → ℚ), Full X t fa fh fn fp fA fZ →
  (∀ i j k : ℕ, i < X.r.n → j < X.t.n → k < X.y.n → Comp.Valid ⟨fa i j k, fh i j k, fn i j k, fp i j k, fA i j k, fZ i j k⟩ ∧
    Comp.charge ⟨fa i j k, fh i j k, fn i j k, fp i j k, fA i j k, fZ i j k⟩ = X.y.at k) →
  ∀ lrho lT ye, X.r.lo ≤ lrho → lrho < X.r.hi → X.t.lo ≤ lT → lT ≤ X.t.hi → X.y.lo ≤ ye → ye ≤ X.y.hi →
    ∃ c, composition X t lrho lT ye = some c ∧ c.Valid ∧ c.charge = ye

theorem stores8 (f : ℕ → ℕ → ℕ → ℚ) :
    Stores ⟨unitAxis, unitAxis, unitAxis⟩ [f 0 0 0, f 1 0 0, f 0 1 0, f 1 1 0, f 0 0 1, f 1 0 1, f 0 1 1, f 1 1 1] f := by
  refine ⟨rfl, ?_⟩
  intro i j k hi hj hk
  have hi : i < 2 := hi
  have hj : j < 2 := hj
  have hk : k < 2 := hk
  interval_cases i <;> interval_cases j <;> interval_cases k <;> rfl

/-- The list of eight numbers. -/
def eight (f : ℕ → ℕ → ℕ → ℚ) : List ℚ := [f 0 0 0, f 1 0 0, f 0 1 0, f 1 1 0, f 0 0 1, f 1 0 1, f 0 1 1, f 1 1 1]

/-- Neutrons and protons at low density, light nuclei (mass four, charge four times the electron fraction) at high density; at low density,
where there are none, the table lists heavy nuclei of mass 56 and charge 28. -/
def nuclei : Tables ℚ where
  Xa := eight fun _ _ _ => 0
  Xh := eight fun i _ _ => i
  Xn := eight fun i _ k => (1 - i) * (1 - k)
  Xp := eight fun i _ k => (1 - i) * k
  Abar := eight fun i _ _ => 56 - 52 * i
  Zbar := eight fun i _ k => 28 - 28 * i + 4 * i * k

/-- **C165 is not satisfied**: between the nodes of this table, without electrons, the nuclei are charged. -/
theorem C165_full_false : ¬ FullC165 := by
  intro h
  obtain ⟨c, h1, -, h2⟩ := h ⟨unitAxis, unitAxis, unitAxis⟩ ⟨unitAxis_even, unitAxis_even, unitAxis_even⟩ nuclei
    (fun _ _ _ => 0) (fun i _ _ => i) (fun i _ k => (1 - i) * (1 - k)) (fun i _ k => (1 - i) * k) (fun i _ _ => 56 - 52 * i)
    (fun i _ k => 28 - 28 * i + 4 * i * k)
    ⟨stores8 (fun _ _ _ => 0), stores8 (fun i _ _ => i), stores8 (fun i _ k => (1 - i) * (1 - k)), stores8 (fun i _ k => (1 - i) * k),
      stores8 (fun i _ _ => 56 - 52 * i), stores8 (fun i _ k => 28 - 28 * i + 4 * i * k)⟩
    (by
      intro i j k hi hj hk
      have hi : i < 2 := hi
      have hk : k < 2 := hk
      interval_cases i <;> interval_cases k <;> norm_num [Comp.Valid, Comp.charge, Axis.at, unitAxis])
    (1 / 2) 0 0 (by norm_num [unitAxis]) (by norm_num [unitAxis]) (by norm_num [unitAxis]) (by norm_num [unitAxis]) (by norm_num [unitAxis])
    (by norm_num [unitAxis])
  have e : composition ⟨unitAxis, unitAxis, unitAxis⟩ nuclei (1 / 2) 0 0 = some ⟨0, 1 / 2, 1 / 2, 0, 30, 14⟩ := by decide +kernel
  rw [e] at h1
  obtain rfl := Option.some.inj h1
  norm_num [Comp.charge] at h2

/-- Without nuclei the hypotheses are met by a table of neutrons and protons. -/
example : composition ⟨unitAxis, unitAxis, unitAxis⟩ (⟨eight fun _ _ _ => 0, eight fun _ _ _ => 0, eight fun _ _ k => 1 - k, eight fun _ _ k => k,
    eight fun _ _ _ => 1, eight fun _ _ _ => 1⟩ : Tables ℚ) (1 / 2) (1 / 3) (1 / 5) = some ⟨0, 0, 4 / 5, 1 / 5, 1, 1⟩ := by decide +kernel

end Nubhlight.Composition
