import Verif.Common
import Verif.Props.Decomp
import Verif.Props.Fluid
import Verif.Model.TorusField
import Mathlib.Algebra.BigOperators.Field

set_option autoImplicit false

/-! # C142, C143: the initial magnetic field of tori -/

set_option linter.unusedSectionVars false

namespace Nubhlight.TorusField
open FluxCT

/-! ## No divergence -/

section Div
variable {K : Type*} [Field K] [LinearOrder K] [IsStrictOrderedRing K]

/-- Divergence of any multiple of the field of one potential plus any multiple of that of another, at the corner of eight zones. -/
theorem divb_combination (dx : Spacing K) (h1 : dx.d1 ≠ 0) (h2 : dx.d2 ≠ 0) (g : ℤ → ℤ → K) (hg : ∀ i j, g i j ≠ 0) (A A2 : ℤ → ℤ → K) (c d : K)
    (P : BArr K) (i j k : ℤ)
    (e1 : ∀ i' ∈ [i, i - 1], ∀ j' ∈ [j, j - 1], ∀ k' ∈ [k, k - 1], P.b1 i' j' k' = c * b1Of dx g A i' j' + d * b1Of dx g A2 i' j')
    (e2 : ∀ i' ∈ [i, i - 1], ∀ j' ∈ [j, j - 1], ∀ k' ∈ [k, k - 1], P.b2 i' j' k' = c * b2Of dx g A i' j' + d * b2Of dx g A2 i' j')
    (e3 : ∀ i' ∈ [i, i - 1], ∀ j' ∈ [j, j - 1], P.b3 i' j' k = P.b3 i' j' (k - 1)) :
    divb dx g P i j k = 0 := by
  have hb1 : ∀ (A : ℤ → ℤ → K) (i j : ℤ), b1Of dx g A i j * g i j = -(A i j - A i (j + 1) + A (i + 1) j - A (i + 1) (j + 1)) / (2 * dx.d2) := by
    intro A i j
    have := hg i j
    unfold b1Of
    field_simp
  have hb2 : ∀ (A : ℤ → ℤ → K) (i j : ℤ), b2Of dx g A i j * g i j = (A i j + A i (j + 1) - A (i + 1) j - A (i + 1) (j + 1)) / (2 * dx.d1) := by
    intro A i j
    have := hg i j
    unfold b2Of
    field_simp
  unfold divb
  rw [e1 i (by simp) j (by simp) k (by simp), e1 i (by simp) (j - 1) (by simp) k (by simp), e1 i (by simp) j (by simp) (k - 1) (by simp),
    e1 i (by simp) (j - 1) (by simp) (k - 1) (by simp), e1 (i - 1) (by simp) j (by simp) k (by simp), e1 (i - 1) (by simp) (j - 1) (by simp) k (by simp),
    e1 (i - 1) (by simp) j (by simp) (k - 1) (by simp), e1 (i - 1) (by simp) (j - 1) (by simp) (k - 1) (by simp),
    e2 i (by simp) j (by simp) k (by simp), e2 i (by simp) (j - 1) (by simp) k (by simp), e2 i (by simp) j (by simp) (k - 1) (by simp),
    e2 i (by simp) (j - 1) (by simp) (k - 1) (by simp), e2 (i - 1) (by simp) j (by simp) k (by simp), e2 (i - 1) (by simp) (j - 1) (by simp) k (by simp),
    e2 (i - 1) (by simp) j (by simp) (k - 1) (by simp), e2 (i - 1) (by simp) (j - 1) (by simp) (k - 1) (by simp),
    e3 i (by simp) j (by simp), e3 i (by simp) (j - 1) (by simp), e3 (i - 1) (by simp) j (by simp), e3 (i - 1) (by simp) (j - 1) (by simp)]
  simp only [add_mul, mul_assoc, hb1, hb2, sub_add_cancel]
  field_simp
  ring

/-- The divergence the code reports (`flux_ct_divb`) for the field of a vector potential is zero at every corner, whatever the potential, the metric and
the spacing. -/
theorem C142_curl (dx : Spacing K) (h1 : dx.d1 ≠ 0) (h2 : dx.d2 ≠ 0) (g : ℤ → ℤ → K) (hg : ∀ i j, g i j ≠ 0) (A : ℤ → ℤ → K) (i j k : ℤ) :
    fluxCtDivb dx g (curl dx g A) i j k = 0 := by
  have := divb_combination dx h1 h2 g hg A A 1 0 (curl dx g A) i j k (by intros; simp [curl]) (by intros; simp [curl]) (by intros; simp [curl])
  unfold fluxCtDivb
  rw [this, abs_zero]

/-- The field of the whole grid: every rank's own zones at their places. -/
def Assembled (D : ArrayIO.Div) (fields : ℕ × ℕ × ℕ → BArr K) (B : BArr K) : Prop :=
  ∀ c : ℕ × ℕ × ℕ, c.1 < D.C1 → c.2.1 < D.C2 → c.2.2 < D.C3 →
    ∀ i j k : ℕ, i < D.n1 → j < D.n2 → k < D.n3 →
      B.b1 (D.s1 c + i) (D.s2 c + j) (D.s3 c + k) = (fields c).b1 i j k ∧
      B.b2 (D.s1 c + i) (D.s2 c + j) (D.s3 c + k) = (fields c).b2 i j k ∧
      B.b3 (D.s1 c + i) (D.s2 c + j) (D.s3 c + k) = (fields c).b3 i j k

/-- Zones divide evenly among ranks (otherwise C55). -/
def Even (D : ArrayIO.Div) : Prop := (0 < D.C1 ∧ D.C1 ∣ D.N1) ∧ (0 < D.C2 ∧ D.C2 ∣ D.N2) ∧ (0 < D.C3 ∧ D.C3 ∣ D.N3)

theorem owner1 (N C I : ℕ) (hC : 0 < C) (h : C ∣ N) (hI : I < N) : ∃ c i, c < C ∧ i < Decomp.stored N C ∧ Decomp.start N C c + i = I := by
  obtain ⟨m, rfl⟩ := h
  have hm : 0 < m := Nat.pos_of_ne_zero (by rintro rfl; simp at hI)
  have e1 : Decomp.stored (C * m) C = m := by simp [Decomp.stored, hC]
  refine ⟨I / m, I % m, ?_, ?_, ?_⟩
  · exact (Nat.div_lt_iff_lt_mul hm).2 hI
  · rw [e1]; exact Nat.mod_lt _ hm
  · have : Decomp.start (C * m) C (I / m) = I / m * m := by
      unfold Decomp.start
      rw [show I / m * (C * m) = C * (I / m * m) by ring, Nat.mul_div_cancel_left _ hC]
    rw [this]
    exact Nat.div_add_mod' I m

/-- Every zone of the grid is one of some rank. -/
theorem owner (D : ArrayIO.Div) (h : Even D) (I J L : ℤ) (hI : 0 ≤ I) (hI' : I < D.N1) (hJ : 0 ≤ J) (hJ' : J < D.N2) (hL : 0 ≤ L) (hL' : L < D.N3) :
    ∃ (c : ℕ × ℕ × ℕ) (i j k : ℕ), c.1 < D.C1 ∧ c.2.1 < D.C2 ∧ c.2.2 < D.C3 ∧ i < D.n1 ∧ j < D.n2 ∧ k < D.n3 ∧
      I = D.s1 c + i ∧ J = D.s2 c + j ∧ L = D.s3 c + k := by
  obtain ⟨⟨a1, a2⟩, ⟨b1, b2⟩, c1, c2⟩ := h
  obtain ⟨I, rfl⟩ := Int.eq_ofNat_of_zero_le hI
  obtain ⟨J, rfl⟩ := Int.eq_ofNat_of_zero_le hJ
  obtain ⟨L, rfl⟩ := Int.eq_ofNat_of_zero_le hL
  obtain ⟨x, i, hx, hi, ei⟩ := owner1 D.N1 D.C1 I a1 a2 (by exact_mod_cast hI')
  obtain ⟨y, j, hy, hj, ej⟩ := owner1 D.N2 D.C2 J b1 b2 (by exact_mod_cast hJ')
  obtain ⟨z, k, hz, hk, ek⟩ := owner1 D.N3 D.C3 L c1 c2 (by exact_mod_cast hL')
  refine ⟨(x, y, z), i, j, k, hx, hy, hz, hi, hj, hk, ?_, ?_, ?_⟩
  · exact_mod_cast ei.symm
  · exact_mod_cast ej.symm
  · exact_mod_cast ek.symm

theorem inBox_zone {n1 n2 n3 i j k : ℕ} (hi : i < n1) (hj : j < n2) (hk : k < n3) :
    inBox 0 ((n1 : ℤ) - 1) 0 ((n2 : ℤ) - 1) 0 ((n3 : ℤ) - 1) i j k = true := by
  unfold inBox
  simp only [Bool.and_eq_true, decide_eq_true_eq]
  omega

/-- The potential at a corner of the whole grid, from the density in the plane of the torus. -/
def globalPotential (rho : ℤ → ℤ → K) (rhomax : K) : ℤ → ℤ → K := potential (fun i j _ => rho i j) 0 rhomax

theorem corners_eq (n1 n2 : ℤ) (f old : ℤ → ℤ → K) (i j : ℤ) (h0 : 0 ≤ i) (h1 : i ≤ n1) (h2 : 0 ≤ j) (h3 : j ≤ n2) : corners n1 n2 f old i j = f i j :=
  if_pos ⟨h0, h1, h2, h3⟩

/-- What a rank holds after both potentials, in one of its zones. -/
theorem netRank_zone (n1 n2 n3 : ℕ) (dx : Spacing K) (g G : ℤ → ℤ → K) (rho : ℤ → ℤ → ℤ → K) (Rho : ℤ → ℤ → K) (rhomax c d : K)
    (A2 B2 old : ℤ → ℤ → K) (P : BArr K) (s1 s2 : ℤ)
    (hr : ∀ i j : ℤ, -1 ≤ i → i ≤ n1 → -1 ≤ j → j ≤ n2 → rho i j (-(Decomp.NG : ℤ)) = Rho (s1 + i) (s2 + j))
    (hG : ∀ i j : ℤ, 0 ≤ i → i < n1 → 0 ≤ j → j < n2 → g i j = G (s1 + i) (s2 + j))
    (hA : ∀ i j : ℤ, 0 ≤ i → i ≤ n1 → 0 ≤ j → j ≤ n2 → A2 i j = B2 (s1 + i) (s2 + j))
    (i j k : ℕ) (hi : i < n1) (hj : j < n2) (hk : k < n3) :
    (netRank n1 n2 n3 dx g rho rhomax c d A2 old P).b1 i j k
        = c * b1Of dx G (globalPotential Rho rhomax) (s1 + i) (s2 + j) + d * b1Of dx G B2 (s1 + i) (s2 + j) ∧
      (netRank n1 n2 n3 dx g rho rhomax c d A2 old P).b2 i j k
        = c * b2Of dx G (globalPotential Rho rhomax) (s1 + i) (s2 + j) + d * b2Of dx G B2 (s1 + i) (s2 + j) ∧
      (netRank n1 n2 n3 dx g rho rhomax c d A2 old P).b3 i j k = 0 := by
  have hb := inBox_zone hi hj hk
  have hpot : ∀ x y : ℤ, 0 ≤ x → x ≤ n1 → 0 ≤ y → y ≤ n2 →
      potential rho (-(Decomp.NG : ℤ)) rhomax x y = globalPotential Rho rhomax (s1 + x) (s2 + y) := by
    intro x y x0 x1 y0 y1
    unfold globalPotential potential
    rw [hr x y (by omega) x1 (by omega) y1, hr (x - 1) y (by omega) (by omega) (by omega) y1, hr x (y - 1) (by omega) x1 (by omega) (by omega),
      hr (x - 1) (y - 1) (by omega) (by omega) (by omega) (by omega)]
    simp only [add_sub_assoc]
  have hi0 : (0 : ℤ) ≤ i := by omega
  have hj0 : (0 : ℤ) ≤ j := by omega
  have hi1 : (i : ℤ) + 1 ≤ n1 := by omega
  have hj1 : (j : ℤ) + 1 ≤ n2 := by omega
  have c00 : ∀ f o : ℤ → ℤ → K, corners n1 n2 f o i j = f i j := fun f o => corners_eq _ _ f o _ _ hi0 (by omega) hj0 (by omega)
  have c01 : ∀ f o : ℤ → ℤ → K, corners n1 n2 f o i (j + 1) = f i (j + 1) := fun f o => corners_eq _ _ f o _ _ hi0 (by omega) (by omega) hj1
  have c10 : ∀ f o : ℤ → ℤ → K, corners n1 n2 f o (i + 1) j = f (i + 1) j := fun f o => corners_eq _ _ f o _ _ (by omega) hi1 hj0 (by omega)
  have c11 : ∀ f o : ℤ → ℤ → K, corners n1 n2 f o (i + 1) (j + 1) = f (i + 1) (j + 1) :=
    fun f o => corners_eq _ _ f o _ _ (by omega) hi1 (by omega) hj1
  have e1 : s1 + ((i : ℤ) + 1) = s1 + i + 1 := by ring
  have e2 : s2 + ((j : ℤ) + 1) = s2 + j + 1 := by ring
  refine ⟨?_, ?_, ?_⟩
  · simp only [netRank, addField, classicRank, scaleField, setField, hb, if_true, b1Of, c00, c01, c10, c11]
    rw [hpot i j hi0 (by omega) hj0 (by omega), hpot i (j + 1) hi0 (by omega) (by omega) hj1, hpot (i + 1) j (by omega) hi1 hj0 (by omega),
      hpot (i + 1) (j + 1) (by omega) hi1 (by omega) hj1, hG i j hi0 (by omega) hj0 (by omega), hA i j hi0 (by omega) hj0 (by omega),
      hA i (j + 1) hi0 (by omega) (by omega) hj1, hA (i + 1) j (by omega) hi1 hj0 (by omega), hA (i + 1) (j + 1) (by omega) hi1 (by omega) hj1, e1, e2]
    ring
  · simp only [netRank, addField, classicRank, scaleField, setField, hb, if_true, b2Of, c00, c01, c10, c11]
    rw [hpot i j hi0 (by omega) hj0 (by omega), hpot i (j + 1) hi0 (by omega) (by omega) hj1, hpot (i + 1) j (by omega) hi1 hj0 (by omega),
      hpot (i + 1) (j + 1) (by omega) hi1 (by omega) hj1, hG i j hi0 (by omega) hj0 (by omega), hA i j hi0 (by omega) hj0 (by omega),
      hA i (j + 1) hi0 (by omega) (by omega) hj1, hA (i + 1) j (by omega) hi1 hj0 (by omega), hA (i + 1) (j + 1) (by omega) hi1 (by omega) hj1, e1, e2]
    ring
  · simp only [netRank, addField, classicRank, scaleField, setField, hb, if_true, zero_mul]

/-- On any even division, with any density that does not depend on azimuth and any two factors common to the ranks, the field computed by all ranks (each from
its own zones and ghost zones) has no divergence at any corner inside the grid, also where ranks meet. -/
theorem C142_ranks (D : ArrayIO.Div) (hD : Even D) (dx : Spacing K) (h1 : dx.d1 ≠ 0) (h2 : dx.d2 ≠ 0) (G : ℤ → ℤ → K) (hG : ∀ i j, G i j ≠ 0)
    (Rho B2 : ℤ → ℤ → K) (rhomax c d : K) (g A2 old : ℕ × ℕ × ℕ → ℤ → ℤ → K) (rho : ℕ × ℕ × ℕ → ℤ → ℤ → ℤ → K) (P : ℕ × ℕ × ℕ → BArr K)
    (hr : ∀ c (i j : ℤ), -1 ≤ i → i ≤ D.n1 → -1 ≤ j → j ≤ D.n2 → rho c i j (-(Decomp.NG : ℤ)) = Rho (D.s1 c + i) (D.s2 c + j))
    (hg : ∀ c (i j : ℤ), 0 ≤ i → i < D.n1 → 0 ≤ j → j < D.n2 → g c i j = G (D.s1 c + i) (D.s2 c + j))
    (hA : ∀ c (i j : ℤ), 0 ≤ i → i ≤ D.n1 → 0 ≤ j → j ≤ D.n2 → A2 c i j = B2 (D.s1 c + i) (D.s2 c + j))
    (B : BArr K) (hB : Assembled D (fun x => netRank D.n1 D.n2 D.n3 dx (g x) (rho x) rhomax c d (A2 x) (old x) (P x)) B)
    (i j k : ℤ) (hi : 0 < i) (hi' : i < D.N1) (hj : 0 < j) (hj' : j < D.N2) (hk : 0 < k) (hk' : k < D.N3) :
    fluxCtDivb dx G B i j k = 0 := by
  have hz : ∀ I J L : ℤ, 0 ≤ I → I < D.N1 → 0 ≤ J → J < D.N2 → 0 ≤ L → L < D.N3 →
      B.b1 I J L = c * b1Of dx G (globalPotential Rho rhomax) I J + d * b1Of dx G B2 I J ∧
      B.b2 I J L = c * b2Of dx G (globalPotential Rho rhomax) I J + d * b2Of dx G B2 I J ∧ B.b3 I J L = 0 := by
    intro I J L a b e f m n
    obtain ⟨x, p, q, t, hx, hy, hw, hp, hq, ht, rfl, rfl, rfl⟩ := owner D hD I J L a b e f m n
    have := hB x hx hy hw p q t hp hq ht
    rw [this.1, this.2.1, this.2.2]
    exact netRank_zone D.n1 D.n2 D.n3 dx (g x) G (rho x) Rho rhomax c d (A2 x) B2 (old x) (P x) (D.s1 x) (D.s2 x) (hr x) (hg x) (hA x) p q t hp hq ht
  have := divb_combination dx h1 h2 G hG (globalPotential Rho rhomax) B2 c d B i j k
    (fun i' hi1 j' hj1 k' hk1 => (hz i' j' k' (by simp at hi1; omega) (by simp at hi1; omega) (by simp at hj1; omega) (by simp at hj1; omega)
      (by simp at hk1; omega) (by simp at hk1; omega)).1)
    (fun i' hi1 j' hj1 k' hk1 => (hz i' j' k' (by simp at hi1; omega) (by simp at hi1; omega) (by simp at hj1; omega) (by simp at hj1; omega)
      (by simp at hk1; omega) (by simp at hk1; omega)).2.1)
    (fun i' hi1 j' hj1 => by
      rw [(hz i' j' k (by simp at hi1; omega) (by simp at hi1; omega) (by simp at hj1; omega) (by simp at hj1; omega) (by omega) hk').2.2,
        (hz i' j' (k - 1) (by simp at hi1; omega) (by simp at hi1; omega) (by simp at hj1; omega) (by simp at hj1; omega) (by omega) (by omega)).2.2])
  unfold fluxCtDivb
  rw [this, abs_zero]

/-- The toroidal field has no divergence either, whatever factor each rank multiplies it by, so long as ranks that differ only in azimuth use the same. -/
theorem C142_toroidal (D : ArrayIO.Div) (hD : Even D) (dx : Spacing K) (G : ℤ → ℤ → K) (Rho : ℤ → ℤ → K) (rhomax : K) (c : ℕ → ℕ → K)
    (rho : ℕ × ℕ × ℕ → ℤ → ℤ → ℤ → K) (P : ℕ × ℕ × ℕ → BArr K)
    (hr : ∀ c (i j k : ℤ), 0 ≤ i → i < D.n1 → 0 ≤ j → j < D.n2 → 0 ≤ k → k < D.n3 → rho c i j k = Rho (D.s1 c + i) (D.s2 c + j))
    (B : BArr K) (hB : Assembled D (fun x => toroidalRank D.n1 D.n2 D.n3 (rho x) rhomax (c x.1 x.2.1) (P x)) B)
    (i j k : ℤ) (hi : 0 < i) (hi' : i < D.N1) (hj : 0 < j) (hj' : j < D.N2) (hk : 0 < k) (hk' : k < D.N3) :
    fluxCtDivb dx G B i j k = 0 := by
  obtain ⟨⟨a1, a2⟩, ⟨b1, b2⟩, c1, c2⟩ := hD
  have hz : ∀ I J : ℤ, 0 ≤ I → I < D.N1 → 0 ≤ J → J < D.N2 → ∃ v, ∀ L : ℤ, 0 ≤ L → L < D.N3 → B.b1 I J L = 0 ∧ B.b2 I J L = 0 ∧ B.b3 I J L = v := by
    intro I J a b e f
    obtain ⟨I, rfl⟩ := Int.eq_ofNat_of_zero_le a
    obtain ⟨J, rfl⟩ := Int.eq_ofNat_of_zero_le e
    obtain ⟨x, i, hx, hi, ei⟩ := owner1 D.N1 D.C1 I a1 a2 (by exact_mod_cast b)
    obtain ⟨y, j, hy, hj, ej⟩ := owner1 D.N2 D.C2 J b1 b2 (by exact_mod_cast f)
    refine ⟨(if 0 < Rho I J / rhomax - 1 / 5 then 1 else 0) * c x y, fun L m n => ?_⟩
    obtain ⟨L, rfl⟩ := Int.eq_ofNat_of_zero_le m
    obtain ⟨z, k, hz, hk, ek⟩ := owner1 D.N3 D.C3 L c1 c2 (by exact_mod_cast n)
    have hb := inBox_zone (n1 := D.n1) (n2 := D.n2) (n3 := D.n3) hi hj hk
    have h := hB (x, y, z) hx hy hz i j k hi hj hk
    have ei' : ((D.s1 (x, y, z) : ℕ) : ℤ) + (i : ℤ) = (I : ℤ) := by exact_mod_cast ei
    have ej' : ((D.s2 (x, y, z) : ℕ) : ℤ) + (j : ℤ) = (J : ℤ) := by exact_mod_cast ej
    have ek' : ((D.s3 (x, y, z) : ℕ) : ℤ) + (k : ℤ) = (L : ℤ) := by exact_mod_cast ek
    rw [ei', ej', ek'] at h
    have hi2 : (i : ℤ) < D.n1 := by exact_mod_cast hi
    have hj2 : (j : ℤ) < D.n2 := by exact_mod_cast hj
    have hk2 : (k : ℤ) < D.n3 := by exact_mod_cast hk
    refine ⟨?_, ?_, ?_⟩
    · rw [h.1]; simp [toroidalRank, scaleField, hb]
    · rw [h.2.1]; simp [toroidalRank, scaleField, hb]
    · rw [h.2.2]
      simp only [toroidalRank, scaleField, hb, if_true]
      rw [hr (x, y, z) i j k (by omega) hi2 (by omega) hj2 (by omega) hk2, ei', ej']
  obtain ⟨v1, h1⟩ := hz i j (by omega) hi' (by omega) hj'
  obtain ⟨v2, h2⟩ := hz (i - 1) j (by omega) (by omega) (by omega) hj'
  obtain ⟨v3, h3⟩ := hz i (j - 1) (by omega) hi' (by omega) (by omega)
  obtain ⟨v4, h4⟩ := hz (i - 1) (j - 1) (by omega) (by omega) (by omega) (by omega)
  have k0 : 0 ≤ k := by omega
  have k1 : 0 ≤ k - 1 := by omega
  have k2 : k - 1 < D.N3 := by omega
  have : divb dx G B i j k = 0 := by
    unfold divb
    simp only [h1 k k0 hk', h1 (k - 1) k1 k2, h2 k k0 hk', h2 (k - 1) k1 k2, h3 k k0 hk', h3 (k - 1) k1 k2, h4 k k0 hk', h4 (k - 1) k1 k2]
    ring
  unfold fluxCtDivb
  rw [this, abs_zero]

end Div

/-- Two by two by two ranks of two zones each way. -/
def eight : ArrayIO.Div := ⟨4, 4, 4, 2, 2, 2⟩

/-- With a density that has a maximum, an assembled field meets the hypotheses of `C142_ranks`, and is not zero. -/
example : ∃ (rho : ℕ × ℕ × ℕ → ℤ → ℤ → ℤ → ℚ) (B : BArr ℚ),
    (∀ c (i j : ℤ), rho c i j (-(Decomp.NG : ℤ)) = (fun x y : ℤ => if x = 1 ∧ y = 1 then (1 : ℚ) else 0) (eight.s1 c + i) (eight.s2 c + j)) ∧
    Assembled eight (fun x => netRank eight.n1 eight.n2 eight.n3 ⟨1, 1, 1⟩ (fun _ _ => 1) (rho x) 1 3 0 (fun _ _ => 0) (fun _ _ => 7)
      ⟨fun _ _ _ => 5, fun _ _ _ => 5, fun _ _ _ => 5⟩) B ∧
    Even eight ∧ B.b1 1 1 0 = 0 ∧ B.b1 1 0 0 ≠ 0 := by
  let D : ArrayIO.Div := eight
  let R : ℤ → ℤ → ℚ := fun x y => if x = 1 ∧ y = 1 then 1 else 0
  refine ⟨fun c i j _ => R (D.s1 c + i) (D.s2 c + j),
    ⟨fun i j _ => 3 * b1Of ⟨1, 1, 1⟩ (fun _ _ => 1) (globalPotential R 1) i j + 0 * b1Of ⟨1, 1, 1⟩ (fun _ _ => 1) (fun _ _ => 0) i j,
      fun i j _ => 3 * b2Of ⟨1, 1, 1⟩ (fun _ _ => 1) (globalPotential R 1) i j + 0 * b2Of ⟨1, 1, 1⟩ (fun _ _ => 1) (fun _ _ => 0) i j, fun _ _ _ => 0⟩,
    fun _ _ _ => rfl, ?_, ?_, ?_, ?_⟩
  · intro c _ _ _ i j k hi hj hk
    have := netRank_zone D.n1 D.n2 D.n3 (⟨1, 1, 1⟩ : Spacing ℚ) (fun _ _ => 1) (fun _ _ => 1) (fun i j _ => R (D.s1 c + i) (D.s2 c + j)) R 1 3 0
      (fun _ _ => 0) (fun _ _ => 0) (fun _ _ => 7) ⟨fun _ _ _ => 5, fun _ _ _ => 5, fun _ _ _ => 5⟩ (D.s1 c) (D.s2 c)
      (fun _ _ _ _ _ _ => rfl) (fun _ _ _ _ _ _ => rfl) (fun _ _ _ _ _ _ => rfl) i j k hi hj hk
    exact ⟨this.1.symm, this.2.1.symm, this.2.2.symm⟩
  · simp [Even, eight]
  · norm_num [b1Of, globalPotential, potential, R]
  · norm_num [b1Of, globalPotential, potential, R]

/-! ## Strength -/

/-- The field strength is quadratic in the field. -/
theorem bsq_scale (c : ℝ) (z : Zone) : (z.scale c).bsq = c ^ 2 * z.bsq := by
  have hu : Fluid.uconCalc (z.scale c).P z.G = Fluid.uconCalc z.P z.G := by
    simp [Fluid.uconCalc, Fluid.mhdGamma, Fluid.qsqOf, Zone.scale]
  unfold Zone.bsq Fluid.bsqCalc Fluid.getState
  have hG : (z.scale c).G = z.G := rfl
  rw [hG, hu]
  set u := Fluid.uconCalc z.P z.G
  have hb : Fluid.bconCalc (z.scale c).P u (Fluid.lower u z.G.gcov) = fun m => c * Fluid.bconCalc z.P u (Fluid.lower u z.G.gcov) m := by
    have e5 : (z.scale c).P 5 = z.P 5 * c := rfl
    have e6 : (z.scale c).P 6 = z.P 6 * c := rfl
    have e7 : (z.scale c).P 7 = z.P 7 * c := rfl
    funext m
    fin_cases m <;> simp [Fluid.bconCalc, e5, e6, e7] <;> ring
  simp only [hb, Fluid.dot, Fluid.lower]
  ring

theorem foldMax_spec {α : Type*} (f : α → ℝ) : ∀ (l : List α) (m : ℝ),
    let r := l.foldl (fun m z => if f z > m then f z else m) m
    (∀ z ∈ l, f z ≤ r) ∧ m ≤ r ∧ (r = m ∨ ∃ z ∈ l, f z = r)
  | [], m => by simp
  | a :: l, m => by
    have ih := foldMax_spec f l (if f a > m then f a else m)
    simp only [List.foldl_cons, List.mem_cons, forall_eq_or_imp] at ih ⊢
    obtain ⟨h1, h2, h3⟩ := ih
    set r := List.foldl (fun m z => if f z > m then f z else m) (if f a > m then f a else m) l
    by_cases h : f a > m
    · rw [if_pos h] at h2 h3
      refine ⟨⟨h2, h1⟩, by linarith, Or.inr ?_⟩
      rcases h3 with h3 | ⟨z, hz, e⟩
      · exact ⟨a, Or.inl rfl, h3.symm⟩
      · exact ⟨z, Or.inr hz, e⟩
    · rw [if_neg h] at h2 h3
      refine ⟨⟨by linarith, h1⟩, h2, ?_⟩
      rcases h3 with h3 | ⟨z, hz, e⟩
      · exact Or.inl h3
      · exact Or.inr ⟨z, Or.inr hz, e⟩

theorem foldlMax_spec : ∀ (l : List ℝ) (m : ℝ), (∀ x ∈ l, x ≤ l.foldl max m) ∧ m ≤ l.foldl max m ∧ (l.foldl max m = m ∨ l.foldl max m ∈ l)
  | [], m => by simp
  | a :: l, m => by
    obtain ⟨h1, h2, h3⟩ := foldlMax_spec l (max m a)
    simp only [List.foldl_cons, List.mem_cons, forall_eq_or_imp]
    refine ⟨⟨le_trans (le_max_right m a) h2, h1⟩, le_trans (le_max_left m a) h2, ?_⟩
    rcases h3 with h3 | h3
    · rcases max_choice m a with e | e
      · exact Or.inl (by rw [h3, e])
      · exact Or.inr (Or.inl (by rw [h3, e]))
    · exact Or.inr (Or.inr h3)

/-- The largest of the ranks' largest values is the largest of all zones. -/
theorem mpiMax_eq (ranks : List (List Zone)) : mpiMax (ranks.map rankMax) = rankMax ranks.flatten := by
  have ha := foldMax_spec Zone.bsq ranks.flatten 0
  simp only at ha
  change (∀ z ∈ ranks.flatten, z.bsq ≤ rankMax ranks.flatten) ∧ 0 ≤ rankMax ranks.flatten ∧
    (rankMax ranks.flatten = 0 ∨ ∃ z ∈ ranks.flatten, z.bsq = rankMax ranks.flatten) at ha
  have hr : ∀ zs, (∀ z ∈ zs, z.bsq ≤ rankMax zs) ∧ 0 ≤ rankMax zs ∧ (rankMax zs = 0 ∨ ∃ z ∈ zs, z.bsq = rankMax zs) :=
    fun zs => foldMax_spec Zone.bsq zs 0
  have hm : ranks ≠ [] → (∀ x ∈ ranks.map rankMax, x ≤ mpiMax (ranks.map rankMax)) ∧ mpiMax (ranks.map rankMax) ∈ ranks.map rankMax := by
    intro hne
    cases ranks with
    | nil => exact absurd rfl hne
    | cons a l =>
      simp only [List.map_cons, mpiMax, List.mem_cons, forall_eq_or_imp]
      obtain ⟨h1, h2, h3⟩ := foldlMax_spec (l.map rankMax) (rankMax a)
      exact ⟨⟨h2, h1⟩, h3⟩
  cases ranks with
  | nil => simp [mpiMax, rankMax]
  | cons a l =>
    obtain ⟨h1, h2⟩ := hm (by simp)
    set M := mpiMax ((a :: l).map rankMax)
    obtain ⟨zs, hzs, e⟩ := List.mem_map.1 h2
    apply le_antisymm
    · rw [← e]
      rcases (hr zs).2.2 with h | ⟨z, hz, hv⟩
      · rw [h]; exact ha.2.1
      · rw [← hv]; exact ha.1 z (List.mem_flatten.2 ⟨zs, hzs, hz⟩)
    · rcases ha.2.2 with h | ⟨z, hz, hv⟩
      · rw [h, ← e]; exact (hr zs).2.1
      · rw [← hv]
        obtain ⟨ys, hys, hz⟩ := List.mem_flatten.1 hz
        exact le_trans ((hr ys).1 z hz) (h1 _ (List.mem_map.2 ⟨ys, hys, rfl⟩))

theorem rankMax_spec (zs : List Zone) : (∀ z ∈ zs, z.bsq ≤ rankMax zs) ∧ 0 ≤ rankMax zs ∧ (rankMax zs = 0 ∨ ∃ z ∈ zs, z.bsq = rankMax zs) :=
  foldMax_spec Zone.bsq zs 0

theorem rankMax_perm (zs ys : List Zone) (h : zs.Perm ys) : rankMax zs = rankMax ys := by
  obtain ⟨a1, a2, a3⟩ := rankMax_spec zs
  obtain ⟨b1, b2, b3⟩ := rankMax_spec ys
  apply le_antisymm
  · rcases a3 with e | ⟨z, hz, e⟩
    · rw [e]; exact b2
    · rw [← e]; exact b1 z (h.subset hz)
  · rcases b3 with e | ⟨z, hz, e⟩
    · rw [e]; exact a2
    · rw [← e]; exact a1 z (h.symm.subset hz)

theorem mapM_some {α β : Type*} (f : α → Option β) (g : α → β) : ∀ l : List α, (∀ x ∈ l, f x = some (g x)) → l.mapM f = some (l.map g)
  | [], _ => rfl
  | a :: l, h => by
    rw [List.mapM_cons, h a (by simp), mapM_some f g l (fun x hx => h x (List.mem_cons_of_mem _ hx))]
    rfl

theorem mapM_none {α β : Type*} (f : α → Option β) : ∀ l : List α, (∃ x ∈ l, f x = none) → l.mapM f = none
  | [], h => by simp at h
  | a :: l, h => by
    rw [List.mapM_cons]
    rcases h with ⟨x, hx, e⟩
    rcases List.mem_cons.1 hx with rfl | hx
    · rw [e]; rfl
    · cases f a with
      | none => rfl
      | some y => rw [mapM_none f l ⟨x, hx, e⟩]; rfl

/-- The ratio of the largest gas pressure to the largest magnetic pressure is the one asked for. -/
def HasBeta (pressmax beta : ℝ) (zs : List Zone) : Prop :=
  ∃ z ∈ zs, (∀ w ∈ zs, w.bsq ≤ z.bsq) ∧ pressmax / (1 / 2 * z.bsq) = beta

theorem scaled_beta (pressmax beta : ℝ) (hp : 0 < pressmax) (hb : 0 < beta) (zs : List Zone) (hz : ∃ z ∈ zs, 0 < z.bsq) :
    ∃ c, normOf pressmax beta (rankMax zs) = some c ∧ HasBeta pressmax beta (zs.map (Zone.scale c)) := by
  obtain ⟨h1, h2, h3⟩ := rankMax_spec zs
  obtain ⟨w, hw, hw0⟩ := hz
  have hM : 0 < rankMax zs := lt_of_lt_of_le hw0 (h1 w hw)
  have hq : 0 < pressmax / (1 / 2 * rankMax zs) / beta := by positivity
  refine ⟨Real.sqrt (pressmax / (1 / 2 * rankMax zs) / beta), ?_, ?_⟩
  · unfold normOf
    rw [if_neg (by push Not; exact ⟨by positivity, hb.ne'⟩)]
    simp only
    rw [if_neg (by linarith)]
  · rcases h3 with e | ⟨z, hz, e⟩
    · exact absurd e hM.ne'
    · refine ⟨z.scale _, List.mem_map.2 ⟨z, hz, rfl⟩, ?_, ?_⟩
      · intro y hy
        obtain ⟨x, hx, rfl⟩ := List.mem_map.1 hy
        rw [bsq_scale, bsq_scale]
        have := h1 x hx
        rw [← e] at this
        exact mul_le_mul_of_nonneg_left this (sq_nonneg _)
      · rw [bsq_scale, Real.sq_sqrt hq.le, e]
        field_simp

/-- The classic field, on any division: if some zone has a field, the normalised field has the ratio asked for. -/
theorem C143_classic_partial (pressmax beta : ℝ) (hp : 0 < pressmax) (hb : 0 < beta) (ranks : List (List Zone)) (hz : ∃ z ∈ ranks.flatten, 0 < z.bsq) :
    ∃ out, normalise .classic pressmax beta ranks = some out ∧ HasBeta pressmax beta out.flatten := by
  obtain ⟨c, hc, h⟩ := scaled_beta pressmax beta hp hb ranks.flatten hz
  refine ⟨ranks.map fun zs => zs.map (Zone.scale c), ?_, ?_⟩
  · unfold normalise heldMax
    simp only
    rw [mpiMax_eq, hc]
    exact mapM_some _ (fun zs : List Zone => zs.map (Zone.scale c)) ranks (fun _ _ => rfl)
  · rw [← List.map_flatten]
    exact h

/-- The classic field is the same on any two divisions of the same zones. -/
theorem C143_classic_division_partial (pressmax beta : ℝ) (ranks ranks' out out' : List (List Zone)) (hd : ranks.flatten.Perm ranks'.flatten)
    (h : normalise .classic pressmax beta ranks = some out) (h' : normalise .classic pressmax beta ranks' = some out') :
    out.flatten.Perm out'.flatten := by
  have key : ∀ r o : List (List Zone), normalise .classic pressmax beta r = some o →
      (r = [] ∧ o = []) ∨ ∃ c, normOf pressmax beta (rankMax r.flatten) = some c ∧ o.flatten = r.flatten.map (Zone.scale c) := by
    intro r o h
    cases hc : normOf pressmax beta (rankMax r.flatten) with
    | none =>
      cases r with
      | nil => left; simpa [normalise] using h.symm
      | cons a l =>
        exfalso
        unfold normalise heldMax at h
        simp only at h
        rw [mpiMax_eq, hc, mapM_none _ _ ⟨a, by simp, rfl⟩] at h
        simp at h
    | some c =>
      right
      refine ⟨c, rfl, ?_⟩
      unfold normalise heldMax at h
      simp only at h
      rw [mpiMax_eq, hc] at h
      have hs := mapM_some (fun zs : List Zone => (some c).map fun c => zs.map (Zone.scale c)) (fun zs : List Zone => zs.map (Zone.scale c)) r
        (fun _ _ => rfl)
      rw [hs] at h
      rw [← Option.some.inj h, ← List.map_flatten]
  have hm := rankMax_perm _ _ hd
  rcases key ranks out h with ⟨e, e1⟩ | ⟨c, hc, e⟩ <;> rcases key ranks' out' h' with ⟨e', e1'⟩ | ⟨c', hc', e'⟩
  · rw [e1, e1']
  · rw [e1, e']
    rw [e] at hd
    have : ranks'.flatten = [] := hd.symm.eq_nil
    rw [this]; simp
  · rw [e1', e]
    rw [e'] at hd
    have : ranks.flatten = [] := hd.eq_nil
    rw [this]; simp
  · rw [hm, hc'] at hc
    rw [e, e', Option.some.inj hc]
    exact hd.map _

/-- The toroidal field: every rank that has a field gives its own zones the ratio asked for, whatever the field of the others. -/
theorem C143_toroidal_each (pressmax beta : ℝ) (hp : 0 < pressmax) (hb : 0 < beta) (ranks out : List (List Zone))
    (hz : ∀ zs ∈ ranks, ∃ z ∈ zs, 0 < z.bsq) (h : normalise .toroidal pressmax beta ranks = some out) :
    ∀ zs ∈ out, HasBeta pressmax beta zs := by
  have : ∀ zs ∈ ranks, (normOf pressmax beta (rankMax zs)).map (fun c => zs.map (Zone.scale c))
      = some (((normOf pressmax beta (rankMax zs)).map (fun c => zs.map (Zone.scale c))).getD []) := by
    intro zs hzs
    obtain ⟨c, hc, -⟩ := scaled_beta pressmax beta hp hb zs (hz zs hzs)
    rw [hc]; rfl
  unfold normalise heldMax at h
  simp only at h
  rw [mapM_some _ _ ranks this] at h
  rw [← Option.some.inj h]
  intro zs hzs
  obtain ⟨ys, hys, rfl⟩ := List.mem_map.1 hzs
  obtain ⟨c, hc, hB⟩ := scaled_beta pressmax beta hp hb ys (hz ys hys)
  rw [hc]
  exact hB

/-- The toroidal field: a rank none of whose zones has a field divides by zero, and is left without numbers. -/
theorem C143_toroidal_empty (pressmax beta : ℝ) (ranks : List (List Zone)) (zs : List Zone) (h : zs ∈ ranks) (hz : ∀ z ∈ zs, z.bsq = 0) :
    normalise .toroidal pressmax beta ranks = none := by
  have hm : rankMax zs = 0 := by
    obtain ⟨-, -, h3⟩ := rankMax_spec zs
    rcases h3 with e | ⟨z, hz', e⟩
    · exact e
    · rw [← e, hz z hz']
  refine mapM_none _ ranks ⟨zs, h, ?_⟩
  simp [heldMax, hm, normOf]

/-- The property in full, for both configurations. -/
def FullC143 : Prop := ∀ (kind : Kind) (pressmax beta : ℝ), 0 < pressmax → 0 < beta → ∀ ranks : List (List Zone), (∃ z ∈ ranks.flatten, 0 < z.bsq) →
  ∃ out, normalise kind pressmax beta ranks = some out ∧ HasBeta pressmax beta out.flatten ∧
    ∀ ranks' : List (List Zone), ranks'.flatten.Perm ranks.flatten → ∃ out', normalise kind pressmax beta ranks' = some out' ∧ out'.flatten.Perm out.flatten

/-- Gas at rest in flat space with a unit field in the third direction, or none. -/
noncomputable def still (b : ℝ) : Zone := ⟨![1, 1, 0, 0, 0, 0, 0, b], Fluid.mink⟩

theorem bsq_still (b : ℝ) : (still b).bsq = b ^ 2 := by
  simp [still, Zone.bsq, Fluid.bsqCalc, Fluid.getState, Fluid.uconCalc, Fluid.mhdGamma, Fluid.qsqOf, Fluid.bconCalc, Fluid.lower, Fluid.dot, Fluid.mink]
  try ring

/-- The property does not hold: the toroidal configuration has no result on a division with a rank outside the torus. -/
theorem C143_full_false : ¬ FullC143 := by
  intro h
  obtain ⟨out, -, -, hd⟩ := h .toroidal 1 1 one_pos one_pos [[still 1, still 0]] ⟨still 1, by simp, by rw [bsq_still]; norm_num⟩
  obtain ⟨out', ho, -⟩ := hd [[still 1], [still 0]] (by simp)
  rw [C143_toroidal_empty 1 1 _ [still 0] (by simp) (by simp [bsq_still])] at ho
  simp at ho

/-- Two zones of unequal field, in one rank and in two: the second gets the strength of the first in the latter case. -/
theorem C143_toroidal_uneven : ∃ out out', normalise .toroidal 2 1 [[still 2, still 1]] = some out ∧ normalise .toroidal 2 1 [[still 2], [still 1]] = some out' ∧
    (out.flatten.map Zone.bsq) = [4, 1] ∧ (out'.flatten.map Zone.bsq) = [4, 4] := by
  have m1 : rankMax [still 2, still 1] = 4 := by simp only [rankMax, List.foldl, bsq_still]; norm_num
  have m2 : rankMax [still 2] = 4 := by simp only [rankMax, List.foldl, bsq_still]; norm_num
  have m3 : rankMax [still 1] = 1 := by simp only [rankMax, List.foldl, bsq_still]; norm_num
  have q1 : (2 : ℝ) / (1 / 2 * 4) / 1 = 1 := by norm_num
  have q2 : (2 : ℝ) / (1 / 2 * 1) / 1 = 4 := by norm_num
  have n1 : normOf 2 1 4 = some 1 := by
    simp only [normOf, q1]
    norm_num
  have n2 : normOf 2 1 1 = some 2 := by
    have : Real.sqrt 4 = 2 := by rw [show (4 : ℝ) = 2 ^ 2 by norm_num]; exact Real.sqrt_sq (by norm_num)
    simp only [normOf, q2, this]
    norm_num
  refine ⟨[[(still 2).scale 1, (still 1).scale 1]], [[(still 2).scale 1], [(still 1).scale 2]], ?_, ?_, ?_, ?_⟩
  · simp [normalise, heldMax, m1, n1]
  · simp [normalise, heldMax, m2, m3, n1, n2]
  · simp [bsq_scale, bsq_still]; norm_num
  · simp [bsq_scale, bsq_still]; norm_num

/-- The hypotheses of the classic theorems are met. -/
example : ∃ z ∈ [[still 1], [still 0]].flatten, 0 < z.bsq := ⟨still 1, by simp, by rw [bsq_still]; norm_num⟩

/-! ## Net flux -/

/-- The flux of the second potential, over the equator inside the torus and over the hemisphere at the sixth zone, by the places of zones in the whole grid. -/
noncomputable def netFlux (E : NetData) (N1 N2 : ℕ) : ℝ :=
  (∑ i ∈ Finset.Ico 5 N1, if E.r i (N2 / 2 : ℕ) < E.rin then 2 * Real.pi * E.dx.d1 * (E.g i (N2 / 2 : ℕ) * |b2Of E.dx E.g E.A i (N2 / 2 : ℕ)|) else 0)
  + ∑ j ∈ Finset.range (N2 / 2), 2 * Real.pi * E.dx.d2 * (E.g 5 j * |b1Of E.dx E.g E.A 5 j|)

/-- Divided in azimuth only, the sum over ranks is the net flux. -/
theorem C143_net_azimuth_partial (E : NetData) (D : ArrayIO.Div) (h1 : D.C1 = 1) (h2 : D.C2 = 1) (h3 : 0 < D.C3) (hN : 0 < D.N2) :
    phi E D = netFlux E D.N1 D.N2 := by
  have hC : (D.C3 : ℝ) ≠ 0 := by exact_mod_cast h3.ne'
  have hn1 : D.n1 = D.N1 := by simp [ArrayIO.Div.n1, Decomp.stored, h1]
  have hn2 : D.n2 = D.N2 := by simp [ArrayIO.Div.n2, Decomp.stored, h2]
  have hk : ∀ c ∈ allRanks D, phiRank E D c = netFlux E D.N1 D.N2 / D.C3 := by
    intro c hc
    have hc1 : c.1 = 0 := by
      simp only [allRanks, Finset.mem_product, Finset.mem_range, h1] at hc; omega
    have hc2 : c.2.1 = 0 := by
      simp only [allRanks, Finset.mem_product, Finset.mem_range, h2] at hc; omega
    have hs1 : D.s1 c = 0 := by simp [ArrayIO.Div.s1, Decomp.start, hc1]
    have hs2 : D.s2 c = 0 := by simp [ArrayIO.Div.s2, Decomp.start, hc2]
    unfold phiRank netFlux
    rw [hs1, hs2, hn1, hn2, if_pos rfl, add_div, Finset.sum_div, Finset.sum_div]
    simp only [zero_add, Nat.cast_zero]
    congr 1
    · refine Finset.sum_congr rfl fun i _ => ?_
      rw [Finset.sum_eq_single (D.N2 / 2)]
      · simp only [true_and]
        split_ifs
        · ring
        · simp
      · intro j _ hj
        rw [if_neg (fun h => hj h.1)]
      · intro h
        exact absurd (Finset.mem_range.2 (Nat.div_lt_self hN (by norm_num))) h
    · refine Finset.sum_congr rfl fun j _ => ?_
      ring
  unfold phi
  rw [Finset.sum_congr rfl hk, Finset.sum_const, nsmul_eq_mul]
  have : ((allRanks D).card : ℝ) = D.C3 := by simp [allRanks, h1, h2]
  rw [this]
  field_simp

/-- Then the added field carries the flux asked for, but for `SMALL`. -/
theorem C143_net_strength_partial (BHflux : ℝ) (E : NetData) (D : ArrayIO.Div) (h1 : D.C1 = 1) (h2 : D.C2 = 1) (h3 : 0 < D.C3) (hN : 0 < D.N2)
    (hp : 0 < netFlux E D.N1 D.N2) :
    netNorm BHflux E D * netFlux E D.N1 D.N2 = BHflux - BHflux * Fluid.SMALL / (netFlux E D.N1 D.N2 + Fluid.SMALL) := by
  have hs : 0 < Fluid.SMALL := by unfold Fluid.SMALL; positivity
  unfold netNorm
  rw [C143_net_azimuth_partial E D h1 h2 h3 hN]
  field_simp
  ring

/-- Divided in latitude the sum is not the net flux: the hemisphere at the sixth zone is taken as the first half of each rank. -/
theorem C143_net_latitude_false : ∃ (E : NetData) (D D' : ArrayIO.Div), Even D ∧ Even D' ∧ (D.N1, D.N2, D.N3) = (D'.N1, D'.N2, D'.N3) ∧
    0 < phi E D ∧ phi E D' ≠ phi E D := by
  let E : NetData := ⟨fun _ j => if j ≤ 1 then 0 else 1, fun _ _ => 1, fun _ _ => 10, 1, ⟨1, 1, 1⟩⟩
  have hb : ∀ i j : ℤ, b1Of E.dx E.g E.A i j = if j = 1 then 1 else 0 := by
    intro i j
    simp only [b1Of, E]
    by_cases h : j = 1
    · subst h; norm_num
    · rw [if_neg h]
      by_cases h' : j ≤ 1
      · have : j + 1 ≤ 1 := by omega
        simp [h', this]
      · have : ¬ (j + 1 ≤ 1) := by omega
        simp [h', this]
  have e1 : phi E ⟨6, 4, 1, 1, 1, 1⟩ = 2 * Real.pi := by
    rw [C143_net_azimuth_partial E _ rfl rfl one_pos (by norm_num)]
    unfold netFlux
    simp only [hb]
    norm_num [E, Finset.sum_range_succ]
  refine ⟨E, ⟨6, 4, 1, 1, 1, 1⟩, ⟨6, 4, 1, 1, 2, 1⟩, by simp [Even], by simp [Even], rfl, ?_, ?_⟩
  · rw [e1]; positivity
  · rw [e1]
    have : phi E ⟨6, 4, 1, 1, 2, 1⟩ = 0 := by
      unfold phi phiRank
      refine Finset.sum_eq_zero fun c hc => ?_
      simp only [hb]
      obtain ⟨x, y, z⟩ := c
      simp only [allRanks, Finset.mem_product, Finset.mem_range] at hc
      have hy : y = 0 ∨ y = 1 := by omega
      rcases hy with rfl | rfl <;>
        simp [E, ArrayIO.Div.n1, ArrayIO.Div.n2, ArrayIO.Div.s1, ArrayIO.Div.s2, Decomp.stored, Decomp.start]
    rw [this]
    have := Real.pi_pos
    linarith

/-- The loops of the third configuration (`MAD == 0`) are laid by constants when there is more than one process. -/
theorem C143_loops_false : ∃ (found : ℝ × ℝ) (betaMin beta : ℝ) (n : Fin 4), 0 < beta ∧ 0 < betaMin ∧ found.1 < found.2 ∧
    loopRadii 2 found ≠ loopRadii 1 found ∧ loopFactor 2 n betaMin beta ≠ loopFactor 1 n betaMin beta :=
  ⟨(1, 2), 1, 1, 0, by norm_num, by norm_num, by norm_num, by norm_num [loopRadii], by norm_num [loopFactor]⟩

/-- With one process each loop is given the plasma beta asked for: the square of the factor brings the least beta in it to `beta`. -/
theorem C143_loops_one (n : Fin 4) (betaMin beta : ℝ) (hm : 0 < betaMin) (hb : 0 < beta) (found : ℝ × ℝ) :
    betaMin / (loopFactor 1 n betaMin beta * loopFactor 1 n betaMin beta) = beta ∧ loopRadii 1 found = found := by
  constructor
  · unfold loopFactor
    rw [if_neg (by norm_num), Real.mul_self_sqrt (by positivity)]
    field_simp
  · unfold loopRadii
    rw [if_neg (by norm_num)]

theorem sum_blocks (f : ℕ → ℝ) (C m : ℕ) : ∑ y ∈ Finset.range C, ∑ j ∈ Finset.range m, f (y * m + j) = ∑ J ∈ Finset.range (C * m), f J := by
  induction C with
  | zero => simp
  | succ C ih => rw [Finset.sum_range_succ, ih, Nat.succ_mul, Finset.sum_range_add]

/-- Divided in latitude and azimuth, the flux over the equator inside the torus is right; what is wrong is the hemisphere alone, made up of the first half of each rank. -/
theorem C143_net_equator (E : NetData) (D : ArrayIO.Div) (hD : Even D) (h1 : D.C1 = 1) (hN : 0 < D.N2) :
    phi E D = netFlux E D.N1 D.N2 - (∑ j ∈ Finset.range (D.N2 / 2), 2 * Real.pi * E.dx.d2 * (E.g 5 j * |b1Of E.dx E.g E.A 5 j|)) +
      ∑ y ∈ Finset.range D.C2, ∑ j ∈ Finset.range (D.n2 / 2), 2 * Real.pi * E.dx.d2 * (E.g 5 (y * D.n2 + j : ℕ) * |b1Of E.dx E.g E.A 5 (y * D.n2 + j : ℕ)|) := by
  obtain ⟨-, ⟨h2, m, hm⟩, h3, -⟩ := hD
  have hC : (D.C3 : ℝ) ≠ 0 := by exact_mod_cast h3.ne'
  have hn1 : D.n1 = D.N1 := by simp [ArrayIO.Div.n1, Decomp.stored, h1]
  have hn2 : D.n2 = m := by simp [ArrayIO.Div.n2, Decomp.stored, hm, h2]
  have hs1 : ∀ c ∈ allRanks D, D.s1 c = 0 := by
    intro c hc
    have hc1 : c.1 = 0 := by
      simp only [allRanks, Finset.mem_product, Finset.mem_range, h1] at hc; omega
    simp [ArrayIO.Div.s1, Decomp.start, hc1]
  have hs2 : ∀ c, D.s2 c = c.2.1 * D.n2 := by
    intro c
    simp only [ArrayIO.Div.s2, Decomp.start, hm, hn2]
    rw [Nat.mul_left_comm, Nat.mul_div_cancel_left _ h2]
  let F : ℕ → ℝ := fun J => ∑ i ∈ Finset.Ico 5 D.N1, if J = D.N2 / 2 ∧ E.r i J < E.rin then 2 * Real.pi * E.dx.d1 * (E.g i J * |b2Of E.dx E.g E.A i J|) else 0
  let H : ℕ → ℝ := fun y => ∑ j ∈ Finset.range (D.n2 / 2), 2 * Real.pi * E.dx.d2 * (E.g 5 (y * D.n2 + j : ℕ) * |b1Of E.dx E.g E.A 5 (y * D.n2 + j : ℕ)|)
  have hk : ∀ c ∈ allRanks D, phiRank E D c = ((∑ j ∈ Finset.range D.n2, F (c.2.1 * D.n2 + j)) + H c.2.1) / D.C3 := by
    intro c hc
    unfold phiRank
    rw [hs1 c hc, hs2 c, hn1, if_pos rfl, add_div, Finset.sum_comm, Finset.sum_div, Finset.sum_div]
    congr 1
    · refine Finset.sum_congr rfl fun j _ => ?_
      rw [Finset.sum_div]
      refine Finset.sum_congr rfl fun i _ => ?_
      push_cast
      simp only [zero_add]
      split_ifs
      · ring
      · simp
    · refine Finset.sum_congr rfl fun j _ => ?_
      push_cast
      ring
  have hF : ∑ J ∈ Finset.range D.N2, F J = ∑ i ∈ Finset.Ico 5 D.N1, if E.r i (D.N2 / 2 : ℕ) < E.rin then 2 * Real.pi * E.dx.d1 * (E.g i (D.N2 / 2 : ℕ) * |b2Of E.dx E.g E.A i (D.N2 / 2 : ℕ)|) else 0 := by
    rw [Finset.sum_eq_single (D.N2 / 2)]
    · simp only [F, true_and]
    · intro J _ hJ
      refine Finset.sum_eq_zero fun i _ => ?_
      rw [if_neg (fun h => hJ h.1)]
    · intro h
      exact absurd (Finset.mem_range.2 (Nat.div_lt_self hN (by norm_num))) h
  have hsum : phi E D = (∑ y ∈ Finset.range D.C2, ∑ j ∈ Finset.range D.n2, F (y * D.n2 + j)) + ∑ y ∈ Finset.range D.C2, H y := by
    unfold phi
    rw [Finset.sum_congr rfl hk]
    unfold allRanks
    rw [h1, Finset.range_one, Finset.sum_product, Finset.sum_singleton, Finset.sum_product]
    simp only [Finset.sum_const, Finset.card_range, nsmul_eq_mul]
    rw [← Finset.sum_add_distrib]
    refine Finset.sum_congr rfl fun y _ => ?_
    field_simp
  rw [hsum, sum_blocks, hn2, ← hm, hF]
  unfold netFlux
  simp only [H, hn2]
  ring

end Nubhlight.TorusField
