import Verif.Common
import Verif.Model.SlicePlot
import Mathlib.Tactic.Linarith
import Mathlib.Tactic.FieldSimp
import Mathlib.Tactic.Positivity
import Mathlib.Tactic.Ring
import Mathlib.Tactic.Push

set_option autoImplicit false
set_option linter.unusedSectionVars false

/-! C248: vertical slices. -/

namespace Nubhlight.SlicePlot

/-- The grid and the positions of its zones: it goes once around in azimuth. -/
structure Pos (g : Grid) where
  r : ℕ → ℝ
  th : ℕ → ℝ
  n3 : 3 ≤ g.n3
  rpos : ∀ i < g.n1, 0 < r i
  grow : ∀ i j, i < j → j < g.n1 → r i < r j
  thpos : ∀ j < g.n2, 0 < Real.sin (th j)

variable {g : Grid} (p : Pos g)

/-- Azimuth of the middle of a zone. -/
noncomputable def Pos.phi (_ : Pos g) (k : ℕ) : ℝ := (k + 1 / 2) * (2 * Real.pi / g.n3)

noncomputable def Pos.x (i j k : ℕ) : ℝ := p.r i * Real.sin (p.th j) * Real.cos (p.phi k)
noncomputable def Pos.y (i j k : ℕ) : ℝ := p.r i * Real.sin (p.th j) * Real.sin (p.phi k)
noncomputable def Pos.z (i j _k : ℕ) : ℝ := p.r i * Real.cos (p.th j)

theorem phi_zero : p.phi 0 = Real.pi / g.n3 := by
  rw [Pos.phi, Nat.cast_zero]
  ring

theorem cos_right : 0 < Real.cos (p.phi 0) := by
  have h3 : (3 : ℝ) ≤ g.n3 := by exact_mod_cast p.n3
  have hp := Real.pi_pos
  rw [phi_zero]
  apply Real.cos_pos_of_mem_Ioo
  constructor
  · have : 0 < Real.pi / g.n3 := by positivity
    linarith
  · rw [div_lt_div_iff₀ (by linarith) (by norm_num)]
    nlinarith

theorem cos_left : Real.cos (p.phi (g.n3 / 2)) < 0 := by
  have h3 : (3 : ℝ) ≤ g.n3 := by exact_mod_cast p.n3
  have hn : (0 : ℝ) < g.n3 := by linarith
  have hp := Real.pi_pos
  have hlo : Real.pi ≤ p.phi (g.n3 / 2) := by
    rw [Pos.phi]
    have h : g.n3 ≤ 2 * (g.n3 / 2) + 1 := by omega
    have h' : (g.n3 : ℝ) ≤ 2 * ((g.n3 / 2 : ℕ) : ℝ) + 1 := by exact_mod_cast h
    rw [mul_div_assoc', le_div_iff₀ hn]
    nlinarith
  have hhi : p.phi (g.n3 / 2) < Real.pi + Real.pi / 2 := by
    rw [Pos.phi]
    have h : 2 * (g.n3 / 2) ≤ g.n3 := by omega
    have h' : 2 * ((g.n3 / 2 : ℕ) : ℝ) ≤ g.n3 := by exact_mod_cast h
    rw [mul_div_assoc', div_lt_iff₀ hn]
    nlinarith
  exact Real.cos_neg_of_pi_div_two_lt_of_lt (by linarith) hhi

/-- The zone drawn at a place of the slice. -/
def zone (g : Grid) (i j : ℕ) : ℕ × ℕ × ℕ :=
  if i < g.n1 then (g.n1 - 1 - i, j, g.n3 / 2) else (i - g.n1, j, 0)

/-- Each zone at the first azimuth and at the one half way around is drawn once, on the
right and on the left, and no other. -/
theorem C248_once (i' j' k' : ℕ) (hi : i' < g.n1) (hj : j' < g.n2) (h3 : 2 ≤ g.n3) :
    (∃! q : ℕ × ℕ, q.1 < 2 * g.n1 ∧ q.2 < g.n2 ∧ zone g q.1 q.2 = (i', j', k')) ↔
      k' = 0 ∨ k' = g.n3 / 2 := by
  constructor
  · rintro ⟨q, ⟨-, -, hq⟩, -⟩
    rw [zone] at hq
    split at hq
    · right; exact (congrArg (fun t => t.2.2) hq).symm
    · left; exact (congrArg (fun t => t.2.2) hq).symm
  · rintro (rfl | rfl)
    · refine ⟨(i' + g.n1, j'), ⟨by dsimp only; omega, hj, ?_⟩, ?_⟩
      · rw [zone, if_neg (by dsimp only; omega), Nat.add_sub_cancel]
      · rintro ⟨a, b⟩ ⟨h1, h2, h⟩
        dsimp only at h1 h2 h
        rw [zone] at h
        split at h
        · have := congrArg (fun t => t.2.2) h
          dsimp only at this
          omega
        · have e1 := congrArg (fun t => t.1) h
          have e2 := congrArg (fun t => t.2.1) h
          dsimp only at e1 e2
          rw [Prod.mk.injEq]
          omega
    · refine ⟨(g.n1 - 1 - i', j'), ⟨by dsimp only; omega, hj, ?_⟩, ?_⟩
      · rw [zone, if_pos (by dsimp only; omega)]
        dsimp only
        rw [show g.n1 - 1 - (g.n1 - 1 - i') = i' by omega]
      · rintro ⟨a, b⟩ ⟨h1, h2, h⟩
        dsimp only at h1 h2 h
        rw [zone] at h
        split at h
        · have e1 := congrArg (fun t => t.1) h
          have e2 := congrArg (fun t => t.2.1) h
          dsimp only at e1 e2
          rw [Prod.mk.injEq]
          omega
        · have := congrArg (fun t => t.2.2) h
          dsimp only at this
          omega

/-- Values and heights are those of the zone drawn, at the poles too. -/
theorem C248_values {α : Type} (var : ℕ → ℕ → ℕ → α) (z : ℕ → ℕ → ℕ → ℝ) (i j : ℕ) :
    shown g var i j = var (zone g i j).1 (zone g i j).2.1 (zone g i j).2.2 ∧
    height g z i j = z (zone g i j).1 (zone g i j).2.1 (zone g i j).2.2 := by
  rw [shown, height, flatten, flatten, zone]
  split <;> exact ⟨rfl, rfl⟩

theorem sqrt_xy {a c s : ℝ} (ha : 0 ≤ a) (h : s ^ 2 + c ^ 2 = 1) :
    Real.sqrt ((a * c) ^ 2 + (a * s) ^ 2) = a := by
  rw [show (a * c) ^ 2 + (a * s) ^ 2 = a ^ 2 * (s ^ 2 + c ^ 2) by ring, h, mul_one,
    Real.sqrt_sq ha]

/-- Away from the poles the distance from the axis is that of the zone drawn, to the right
for the first azimuth and to the left for the other. -/
theorem C248_place_partial (i j : ℕ) (hi : i < 2 * g.n1) (h0 : 0 < j) (hj : j + 1 < g.n2) :
    rcyl g p.x p.y i j =
      (if i < g.n1 then -1 else 1) * (p.r (zone g i j).1 * Real.sin (p.th j)) := by
  have hs := p.thpos j (by omega)
  have e : ∀ a, flattenFlip g a i j = flatten g a i j := by
    intro a
    rw [flattenFlip, if_neg (by omega)]
  rw [rcyl]
  simp only [e, flatten]
  by_cases hc : i < g.n1
  · have hr := p.rpos (g.n1 - 1 - i) (by omega)
    have hz : (zone g i j).1 = g.n1 - 1 - i := by rw [zone, if_pos hc]
    simp only [if_pos hc, hz]
    have ha : 0 < p.r (g.n1 - 1 - i) * Real.sin (p.th j) := mul_pos hr hs
    have hx : p.x (g.n1 - 1 - i) j (g.n3 / 2) < 0 := mul_neg_of_pos_of_neg ha (cos_left p)
    rw [if_pos hx, Pos.x, Pos.y,
      sqrt_xy ha.le (Real.sin_sq_add_cos_sq (p.phi (g.n3 / 2)))]
  · have hr := p.rpos (i - g.n1) (by omega)
    have hz : (zone g i j).1 = i - g.n1 := by rw [zone, if_neg hc]
    simp only [if_neg hc, hz]
    have ha : 0 < p.r (i - g.n1) * Real.sin (p.th j) := mul_pos hr hs
    have hx : ¬ p.x (i - g.n1) j 0 < 0 := not_lt.2 (mul_pos ha (cos_right p)).le
    rw [if_neg hx, Pos.x, Pos.y, sqrt_xy ha.le (Real.sin_sq_add_cos_sq (p.phi 0)),
      one_mul]

/-- Along a row the distance from the axis grows from left to right, so the mesh is not
folded. -/
theorem C248_order (j : ℕ) (h0 : 0 < j) (hj : j + 1 < g.n2) (i i' : ℕ) (hii : i < i')
    (hi : i' < 2 * g.n1) : rcyl g p.x p.y i j < rcyl g p.x p.y i' j := by
  have hs := p.thpos j (by omega)
  rw [C248_place_partial p i j (by omega) h0 hj, C248_place_partial p i' j hi h0 hj]
  by_cases h : i < g.n1
  · have hz : (zone g i j).1 = g.n1 - 1 - i := by rw [zone, if_pos h]
    have hr := p.rpos (g.n1 - 1 - i) (by omega)
    rw [if_pos h, hz]
    by_cases h' : i' < g.n1
    · have hz' : (zone g i' j).1 = g.n1 - 1 - i' := by rw [zone, if_pos h']
      rw [if_pos h', hz']
      have := p.grow (g.n1 - 1 - i') (g.n1 - 1 - i) (by omega) (by omega)
      nlinarith
    · have hz' : (zone g i' j).1 = i' - g.n1 := by rw [zone, if_neg h']
      have hr' := p.rpos (i' - g.n1) (by omega)
      rw [if_neg h', hz']
      have h1 := mul_pos hr hs
      have h2 := mul_pos hr' hs
      linarith
  · have h' : ¬ i' < g.n1 := by omega
    have hz : (zone g i j).1 = i - g.n1 := by rw [zone, if_neg h]
    have hz' : (zone g i' j).1 = i' - g.n1 := by rw [zone, if_neg h']
    rw [if_neg h, if_neg h', hz, hz']
    have := p.grow (i - g.n1) (i' - g.n1) (by omega) (by omega)
    nlinarith

/-- The zones next to the poles are drawn on the axis, at the height of the zone. -/
theorem C248_poles (i j : ℕ) (h : j = 0 ∨ j = g.n2 - 1) : rcyl g p.x p.y i j = 0 := by
  have e : ∀ a, flattenFlip g a i j = 0 := by
    intro a
    rw [flattenFlip, if_pos h]
  rw [rcyl]
  simp only [e]
  rw [if_neg (lt_irrefl _)]
  simp

/-- The zones on the left are opposite to those on the right exactly if the number of
zones in azimuth is even. -/
theorem C248_opposite : p.phi (g.n3 / 2) - p.phi 0 = Real.pi ↔ Even g.n3 := by
  have h3 : (3 : ℝ) ≤ g.n3 := by exact_mod_cast p.n3
  have hn : (g.n3 : ℝ) ≠ 0 := by linarith
  have hp := Real.pi_pos
  have e : p.phi (g.n3 / 2) - p.phi 0 = ((g.n3 / 2 : ℕ) : ℝ) * (2 * Real.pi) / g.n3 := by
    rw [Pos.phi, Pos.phi, Nat.cast_zero]
    ring
  rw [e, div_eq_iff hn]
  constructor
  · intro h
    have h' : 2 * ((g.n3 / 2 : ℕ) : ℝ) = g.n3 := by
      have : Real.pi * (2 * ((g.n3 / 2 : ℕ) : ℝ)) = Real.pi * g.n3 := by linarith
      exact mul_left_cancel₀ hp.ne' this
    have h'' : 2 * (g.n3 / 2) = g.n3 := by exact_mod_cast h'
    exact ⟨g.n3 / 2, by omega⟩
  · rintro ⟨k, hk⟩
    have hk2 : g.n3 / 2 = k := by omega
    rw [hk2]
    have : (g.n3 : ℝ) = k + k := by exact_mod_cast hk
    rw [this]
    ring

/-- The property as registered: each zone drawn is at its distance from the axis. -/
def FullC248 : Prop :=
  ∀ (g : Grid) (p : Pos g) (i j : ℕ), i < 2 * g.n1 → j < g.n2 →
    |rcyl g p.x p.y i j| = p.r (zone g i j).1 * Real.sin (p.th j)

/-- A small grid. -/
def small : Grid := { n1 := 2, n2 := 4, n3 := 4 }

noncomputable def smallPos : Pos small where
  r i := i + 1
  th _ := Real.pi / 2
  n3 := by norm_num [small]
  rpos i _ := by positivity
  grow i j h _ := by
    have : (i : ℝ) < j := by exact_mod_cast h
    linarith
  thpos j _ := by rw [Real.sin_pi_div_two]; norm_num

theorem C248_full_false : ¬ FullC248 := by
  intro h
  have h1 := h small smallPos 2 0 (by norm_num [small]) (by norm_num [small])
  rw [C248_poles smallPos 2 0 (Or.inl rfl)] at h1
  have hz : (zone small 2 0).1 = 0 := by simp [zone, small]
  rw [hz] at h1
  simp [smallPos] at h1

example : rcyl small smallPos.x smallPos.y 0 1 = -2 := by
  rw [C248_place_partial smallPos 0 1 (by norm_num [small]) (by norm_num) (by norm_num [small])]
  have hz : (zone small 0 1).1 = 1 := by simp [zone, small]
  rw [hz]
  simp [smallPos, small]
  norm_num

end Nubhlight.SlicePlot
