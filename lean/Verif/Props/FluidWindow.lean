import Verif.Model.FluidStep
import Verif.Props.Bounds
import Verif.Common
import Mathlib.Algebra.Order.Ring.Rat

set_option autoImplicit false
set_option linter.unusedSectionVars false

/-! # A rank of the fluid step as a window of the whole grid (for C126) -/

namespace Nubhlight.FluidStep

open Bounds Inflow

variable {K : Type*} [Field K] [LinearOrder K] [IsStrictOrderedRing K]

/-! ## One rank as a window of a larger grid -/

/-- A rank of size `n` at `o` in a grid of size `m`: the data for the zones it stores are those of the grid, and it
treats the sides it shares with the grid as such. -/
structure Window (n : FluxCT.Dims) (o : Origin) (m : FluxCT.Dims) (g g' : Guards) : Prop where
  p1 : 1 ≤ n.n1
  p2 : 1 ≤ n.n2
  p3 : 1 ≤ n.n3
  l1 : 0 ≤ o.o1
  l2 : 0 ≤ o.o2
  l3 : 0 ≤ o.o3
  r1 : o.o1 + n.n1 ≤ m.n1
  r2 : o.o2 + n.n2 ≤ m.n2
  r3 : o.o3 + n.n3 ≤ m.n3
  x1l : g.x1l = (g'.x1l && decide (o.o1 = 0))
  x1r : g.x1r = (g'.x1r && decide (o.o1 + n.n1 = m.n1))
  x2l : g.x2l = (g'.x2l && decide (o.o2 = 0))
  x2r : g.x2r = (g'.x2r && decide (o.o2 + n.n2 = m.n2))

/-- Same zone variables in the window. -/
def Sees {V : Type*} (n : FluxCT.Dims) (o : Origin) (P E : ℤ → ℤ → ℤ → V) : Prop :=
  ∀ i j k, -3 ≤ i → i < n.n1 + 3 → -3 ≤ j → j < n.n2 + 3 → -3 ≤ k → k < n.n3 + 3 → P i j k = E (o.o1 + i) (o.o2 + j) (o.o3 + k)

/-- Same fluxes in the window, from the given lower indices up to `n`. -/
def SeesF {V : Type*} (n : FluxCT.Dims) (o : Origin) (a1 a2 a3 : ℤ) (F F' : ℤ → ℤ → ℤ → V) : Prop :=
  ∀ i j k, a1 ≤ i → i ≤ n.n1 → a2 ≤ j → j ≤ n.n2 → a3 ≤ k → k ≤ n.n3 → F i j k = F' (o.o1 + i) (o.o2 + j) (o.o3 + k)

/-- The rank that holds the whole grid. -/
def zeroOrigin : Origin := ⟨0, 0, 0⟩

section window

variable {n m : FluxCT.Dims} {o : Origin} {g g' : Guards} (w : Window n o m g g')
include w

theorem raw_sees (sol : Solver K) (P E : ℤ → ℤ → ℤ → Prim K) (old old' : FArr3 K) (h : Sees n o P E) :
    SeesF n o 0 (-1) (-1) (rawFlux sol n o P old).1 (rawFlux sol m zeroOrigin E old').1 ∧
    SeesF n o (-1) 0 (-1) (rawFlux sol n o P old).2.1 (rawFlux sol m zeroOrigin E old').2.1 ∧
    SeesF n o (-1) (-1) 0 (rawFlux sol n o P old).2.2 (rawFlux sol m zeroOrigin E old').2.2 := by
  obtain ⟨p1, p2, p3, l1, l2, l3, r1, r2, r3, -, -, -, -⟩ := w
  refine ⟨?_, ?_, ?_⟩ <;> intro i j k i0 i1 j0 j1 k0 k1
  · have b1 : FluxCT.inBox 0 n.n1 (-1) n.n2 (-1) n.n3 i j k = true := by
      simp only [FluxCT.inBox, Bool.and_eq_true, decide_eq_true_eq]; omega
    have b2 : FluxCT.inBox 0 m.n1 (-1) m.n2 (-1) m.n3 (o.o1 + i) (o.o2 + j) (o.o3 + k) = true := by
      simp only [FluxCT.inBox, Bool.and_eq_true, decide_eq_true_eq]; omega
    simp only [rawFlux, b1, b2, if_true, zeroOrigin, zero_add]
    congr 1
    funext s
    have hs : (s : ℤ) < 6 := by have := s.2; omega
    rw [h _ _ _ (by omega) (by omega) (by omega) (by omega) (by omega) (by omega)]
    congr 1; ring
  · have b1 : FluxCT.inBox (-1) n.n1 0 n.n2 (-1) n.n3 i j k = true := by
      simp only [FluxCT.inBox, Bool.and_eq_true, decide_eq_true_eq]; omega
    have b2 : FluxCT.inBox (-1) m.n1 0 m.n2 (-1) m.n3 (o.o1 + i) (o.o2 + j) (o.o3 + k) = true := by
      simp only [FluxCT.inBox, Bool.and_eq_true, decide_eq_true_eq]; omega
    simp only [rawFlux, b1, b2, if_true, zeroOrigin, zero_add]
    congr 1
    funext s
    have hs : (s : ℤ) < 6 := by have := s.2; omega
    rw [h _ _ _ (by omega) (by omega) (by omega) (by omega) (by omega) (by omega)]
    congr 1; ring
  · have b1 : FluxCT.inBox (-1) n.n1 (-1) n.n2 0 n.n3 i j k = true := by
      simp only [FluxCT.inBox, Bool.and_eq_true, decide_eq_true_eq]; omega
    have b2 : FluxCT.inBox (-1) m.n1 (-1) m.n2 0 m.n3 (o.o1 + i) (o.o2 + j) (o.o3 + k) = true := by
      simp only [FluxCT.inBox, Bool.and_eq_true, decide_eq_true_eq]; omega
    simp only [rawFlux, b1, b2, if_true, zeroOrigin, zero_add]
    congr 1
    funext s
    have hs : (s : ℤ) < 6 := by have := s.2; omega
    rw [h _ _ _ (by omega) (by omega) (by omega) (by omega) (by omega) (by omega)]
    congr 1; ring

theorem fixX1L_sees (F F' : FArr K) (h : SeesF n o 0 (-1) (-1) F F') :
    SeesF n o 0 (-1) (-1) (if g.x1l then fixX1L n F else F) (if g'.x1l then fixX1L m F' else F') := by
  obtain ⟨p1, p2, p3, l1, l2, l3, r1, r2, r3, e, -, -, -⟩ := w
  intro i j k i0 i1 j0 j1 k0 k1
  have hF := h i j k i0 i1 j0 j1 k0 k1
  have a1 : (inAll n.n2 j && inAll n.n3 k) = true := by simp [inAll]; omega
  have a2 : (inAll m.n2 (o.o2 + j) && inAll m.n3 (o.o3 + k)) = true := by simp [inAll]; omega
  simp only [Bool.and_eq_true] at a1 a2
  rw [e]
  cases hg : g'.x1l
  · simpa using hF
  · by_cases ho : o.o1 = 0
    · funext q
      simp only [ho, decide_true, Bool.and_true, if_true, fixX1L, a1, a2, and_self, and_true, zero_add]
      rw [hF, ho, zero_add]
    · funext q
      have : ¬ (o.o1 + i = 0) := by omega
      simp [ho, fixX1L, this, hF]

theorem fixX1R_sees (F F' : FArr K) (h : SeesF n o 0 (-1) (-1) F F') :
    SeesF n o 0 (-1) (-1) (if g.x1r then fixX1R n F else F) (if g'.x1r then fixX1R m F' else F') := by
  obtain ⟨p1, p2, p3, l1, l2, l3, r1, r2, r3, -, e, -, -⟩ := w
  intro i j k i0 i1 j0 j1 k0 k1
  have hF := h i j k i0 i1 j0 j1 k0 k1
  have a1 : (inAll n.n2 j && inAll n.n3 k) = true := by simp [inAll]; omega
  have a2 : (inAll m.n2 (o.o2 + j) && inAll m.n3 (o.o3 + k)) = true := by simp [inAll]; omega
  simp only [Bool.and_eq_true] at a1 a2
  rw [e]
  cases hg : g'.x1r
  · simpa using hF
  · by_cases ho : o.o1 + n.n1 = m.n1
    · funext q
      have hi : (i = n.n1) ↔ (o.o1 + i = m.n1) := by omega
      simp only [ho, decide_true, Bool.and_true, if_true, fixX1R, a1, a2, and_self, and_true, hi]
      rw [hF]
    · funext q
      have : ¬ (o.o1 + i = m.n1) := by omega
      simp [ho, fixX1R, this, hF]

theorem mirrorL_sees (a1 a3 : ℤ) (h1 : -1 ≤ a1) (h3 : -1 ≤ a3) (F F' : FArr K) (h : SeesF n o a1 (-1) a3 F F') :
    SeesF n o a1 (-1) a3 (if g.x2l then mirrorX2L n F else F) (if g'.x2l then mirrorX2L m F' else F') := by
  obtain ⟨p1, p2, p3, l1, l2, l3, r1, r2, r3, -, -, e, -⟩ := w
  intro i j k i0 i1 j0 j1 k0 k1
  have hF := h i j k i0 i1 j0 j1 k0 k1
  have hF0 := h i 0 k i0 i1 (by omega) (by omega) k0 k1
  have b1 : (inAll n.n1 i && inAll n.n3 k) = true := by simp [inAll]; omega
  have b2 : (inAll m.n1 (o.o1 + i) && inAll m.n3 (o.o3 + k)) = true := by simp [inAll]; omega
  simp only [Bool.and_eq_true] at b1 b2
  rw [e]
  cases hg : g'.x2l
  · simpa using hF
  · by_cases ho : o.o2 = 0
    · funext q
      simp only [ho, decide_true, Bool.and_true, if_true, mirrorX2L, b1, b2, and_self, and_true, zero_add]
      rw [hF, hF0, ho, zero_add, zero_add]
    · funext q
      have : ¬ (o.o2 + j = -1) := by omega
      simp [ho, mirrorX2L, this, hF]

theorem mirrorR_sees (a1 a3 : ℤ) (h1 : -1 ≤ a1) (h3 : -1 ≤ a3) (F F' : FArr K) (h : SeesF n o a1 (-1) a3 F F') :
    SeesF n o a1 (-1) a3 (if g.x2r then mirrorX2R n F else F) (if g'.x2r then mirrorX2R m F' else F') := by
  obtain ⟨p1, p2, p3, l1, l2, l3, r1, r2, r3, -, -, -, e⟩ := w
  intro i j k i0 i1 j0 j1 k0 k1
  have hF := h i j k i0 i1 j0 j1 k0 k1
  have hF0 := h i (n.n2 - 1) k i0 i1 (by omega) (by omega) k0 k1
  have b1 : (inAll n.n1 i && inAll n.n3 k) = true := by simp [inAll]; omega
  have b2 : (inAll m.n1 (o.o1 + i) && inAll m.n3 (o.o3 + k)) = true := by simp [inAll]; omega
  simp only [Bool.and_eq_true] at b1 b2
  rw [e]
  cases hg : g'.x2r
  · simpa using hF
  · by_cases ho : o.o2 + n.n2 = m.n2
    · funext q
      have hj : (j = n.n2) ↔ (o.o2 + j = m.n2) := by omega
      have hm : o.o2 + (n.n2 - 1) = m.n2 - 1 := by omega
      simp only [ho, decide_true, Bool.and_true, if_true, mirrorX2R, b1, b2, and_self, and_true, hj]
      rw [hF, hF0, hm]
    · funext q
      have : ¬ (o.o2 + j = m.n2) := by omega
      simp [ho, mirrorX2R, this, hF]

theorem zeroL_sees (F F' : FArr K) (h : SeesF n o (-1) 0 (-1) F F') :
    SeesF n o (-1) 0 (-1) (if g.x2l then zeroX2 n 0 F else F) (if g'.x2l then zeroX2 m 0 F' else F') := by
  obtain ⟨p1, p2, p3, l1, l2, l3, r1, r2, r3, -, -, e, -⟩ := w
  intro i j k i0 i1 j0 j1 k0 k1
  have hF := h i j k i0 i1 j0 j1 k0 k1
  have b1 : (inAll n.n1 i && inAll n.n3 k) = true := by simp [inAll]; omega
  have b2 : (inAll m.n1 (o.o1 + i) && inAll m.n3 (o.o3 + k)) = true := by simp [inAll]; omega
  simp only [Bool.and_eq_true] at b1 b2
  rw [e]
  cases hg : g'.x2l
  · simpa using hF
  · by_cases ho : o.o2 = 0
    · funext q
      simp only [ho, decide_true, Bool.and_true, if_true, zeroX2, b1, b2, and_self, and_true, zero_add]
      rw [hF, ho, zero_add]
    · funext q
      have : ¬ (o.o2 + j = 0) := by omega
      simp [ho, zeroX2, this, hF]

theorem zeroR_sees (F F' : FArr K) (h : SeesF n o (-1) 0 (-1) F F') :
    SeesF n o (-1) 0 (-1) (if g.x2r then zeroX2 n n.n2 F else F) (if g'.x2r then zeroX2 m m.n2 F' else F') := by
  obtain ⟨p1, p2, p3, l1, l2, l3, r1, r2, r3, -, -, -, e⟩ := w
  intro i j k i0 i1 j0 j1 k0 k1
  have hF := h i j k i0 i1 j0 j1 k0 k1
  have b1 : (inAll n.n1 i && inAll n.n3 k) = true := by simp [inAll]; omega
  have b2 : (inAll m.n1 (o.o1 + i) && inAll m.n3 (o.o3 + k)) = true := by simp [inAll]; omega
  simp only [Bool.and_eq_true] at b1 b2
  rw [e]
  cases hg : g'.x2r
  · simpa using hF
  · by_cases ho : o.o2 + n.n2 = m.n2
    · funext q
      have hj : (j = n.n2) ↔ (o.o2 + j = m.n2) := by omega
      simp only [ho, decide_true, Bool.and_true, if_true, zeroX2, b1, b2, and_self, and_true, hj]
      rw [hF]
    · funext q
      have : ¬ (o.o2 + j = m.n2) := by omega
      simp [ho, zeroX2, this, hF]

/-- The three arrays agree in the window. -/
def Sees3 (n : FluxCT.Dims) (o : Origin) (F F' : FArr3 K) : Prop :=
  SeesF n o 0 (-1) (-1) F.1 F'.1 ∧ SeesF n o (-1) 0 (-1) F.2.1 F'.2.1 ∧ SeesF n o (-1) (-1) 0 F.2.2 F'.2.2

theorem fixFlux_sees (F F' : FArr3 K) (h : Sees3 n o F F') : Sees3 n o (fixFlux n g F) (fixFlux m g' F') := by
  obtain ⟨h1, h2, h3⟩ := h
  refine ⟨?_, ?_, ?_⟩
  · exact mirrorR_sees w _ _ (by norm_num) (by norm_num) _ _ (mirrorL_sees w _ _ (by norm_num) (by norm_num) _ _
      (fixX1R_sees w _ _ (fixX1L_sees w _ _ h1)))
  · exact zeroR_sees w _ _ (zeroL_sees w _ _ h2)
  · exact mirrorR_sees w _ _ (by norm_num) (by norm_num) _ _ (mirrorL_sees w _ _ (by norm_num) (by norm_num) _ _ h3)

theorem emf_sees (F F' : FArr3 K) (e e' : FluxCT.Emf K) (h : Sees3 n o F F') :
    SeesF n o 0 0 0 (FluxCT.emfCalc n (magnetic F) e).e1 (FluxCT.emfCalc m (magnetic F') e').e1 ∧
    SeesF n o 0 0 0 (FluxCT.emfCalc n (magnetic F) e).e2 (FluxCT.emfCalc m (magnetic F') e').e2 ∧
    SeesF n o 0 0 0 (FluxCT.emfCalc n (magnetic F) e).e3 (FluxCT.emfCalc m (magnetic F') e').e3 := by
  obtain ⟨p1, p2, p3, l1, l2, l3, r1, r2, r3, -, -, -, -⟩ := w
  obtain ⟨h1, h2, h3⟩ := h
  have sub : ∀ a b : ℤ, a + b - 1 = a + (b - 1) := fun a b => by ring
  have b1 : ∀ i j k, 0 ≤ i → i ≤ n.n1 → 0 ≤ j → j ≤ n.n2 → 0 ≤ k → k ≤ n.n3 → FluxCT.inBox 0 n.n1 0 n.n2 0 n.n3 i j k = true := by
    intro i j k _ _ _ _ _ _
    simp only [FluxCT.inBox, Bool.and_eq_true, decide_eq_true_eq]; omega
  have b2 : ∀ i j k, 0 ≤ i → i ≤ n.n1 → 0 ≤ j → j ≤ n.n2 → 0 ≤ k → k ≤ n.n3 →
      FluxCT.inBox 0 m.n1 0 m.n2 0 m.n3 (o.o1 + i) (o.o2 + j) (o.o3 + k) = true := by
    intro i j k _ _ _ _ _ _
    simp only [FluxCT.inBox, Bool.and_eq_true, decide_eq_true_eq]; omega
  refine ⟨?_, ?_, ?_⟩ <;> intro i j k i0 i1 j0 j1 k0 k1
  · simp only [FluxCT.emfCalc, magnetic, b1 i j k i0 i1 j0 j1 k0 k1, b2 i j k i0 i1 j0 j1 k0 k1, if_true, sub]
    rw [h2 i j k, h2 i j (k - 1), h3 i j k, h3 i (j - 1) k] <;> omega
  · simp only [FluxCT.emfCalc, magnetic, b1 i j k i0 i1 j0 j1 k0 k1, b2 i j k i0 i1 j0 j1 k0 k1, if_true, sub]
    rw [h1 i j k, h1 i j (k - 1), h3 i j k, h3 (i - 1) j k] <;> omega
  · simp only [FluxCT.emfCalc, magnetic, b1 i j k i0 i1 j0 j1 k0 k1, b2 i j k i0 i1 j0 j1 k0 k1, if_true, sub]
    rw [h1 i j k, h1 i (j - 1) k, h2 i j k, h2 (i - 1) j k] <;> omega

theorem flux_sees (sol : Solver K) (P E : ℤ → ℤ → ℤ → Prim K) (st st' : Stale K) (h : Sees n o P E) (i j k : ℤ)
    (i0 : 0 ≤ i) (j0 : 0 ≤ j) (k0 : 0 ≤ k) (i1 : i ≤ n.n1) (j1 : j ≤ n.n2) (k1 : k ≤ n.n3) :
    (j < n.n2 → k < n.n3 → (rankFlux sol n o g P st).1 i j k = (rankFlux sol m zeroOrigin g' E st').1 (o.o1 + i) (o.o2 + j) (o.o3 + k)) ∧
    (i < n.n1 → k < n.n3 → (rankFlux sol n o g P st).2.1 i j k = (rankFlux sol m zeroOrigin g' E st').2.1 (o.o1 + i) (o.o2 + j) (o.o3 + k)) ∧
    (i < n.n1 → j < n.n2 → (rankFlux sol n o g P st).2.2 i j k = (rankFlux sol m zeroOrigin g' E st').2.2 (o.o1 + i) (o.o2 + j) (o.o3 + k)) := by
  have hraw : Sees3 n o (rawFlux sol n o P st.F) (rawFlux sol m zeroOrigin E st'.F) := raw_sees w sol P E _ _ h
  set F := if sol.mks then fixFlux n g (rawFlux sol n o P st.F) else rawFlux sol n o P st.F with hFdef
  set F' := if sol.mks then fixFlux m g' (rawFlux sol m zeroOrigin E st'.F) else rawFlux sol m zeroOrigin E st'.F with hFdef'
  have hF : Sees3 n o F F' := by
    rw [hFdef, hFdef']
    cases sol.mks
    · exact hraw
    · exact fixFlux_sees w _ _ hraw
  obtain ⟨e1, e2, e3⟩ := emf_sees w F F' st.emf st'.emf hF
  obtain ⟨h1, h2, h3⟩ := hF
  have r : rankFlux sol n o g P st = withB F (FluxCT.fluxCT n (magnetic F) st.emf) := rfl
  have r' : rankFlux sol m zeroOrigin g' E st' = withB F' (FluxCT.fluxCT m (magnetic F') st'.emf) := rfl
  rw [r, r']
  have add : ∀ a b : ℤ, a + b + 1 = a + (b + 1) := fun a b => by ring
  obtain ⟨p1, p2, p3, l1, l2, l3, r1, r2, r3, -, -, -, -⟩ := w
  refine ⟨fun u v => ?_, fun u v => ?_, fun u v => ?_⟩
  · have b1 : FluxCT.inBox 0 n.n1 0 (n.n2 - 1) 0 (n.n3 - 1) i j k = true := by
      simp only [FluxCT.inBox, Bool.and_eq_true, decide_eq_true_eq]; omega
    have b2 : FluxCT.inBox 0 m.n1 0 (m.n2 - 1) 0 (m.n3 - 1) (o.o1 + i) (o.o2 + j) (o.o3 + k) = true := by
      simp only [FluxCT.inBox, Bool.and_eq_true, decide_eq_true_eq]; omega
    funext q
    simp only [withB, FluxCT.fluxCT, b1, b2, if_true, add]
    rw [e3 i j k, e3 i (j + 1) k, e2 i j k, e2 i j (k + 1), h1 i j k] <;> omega
  · have b1 : FluxCT.inBox 0 (n.n1 - 1) 0 n.n2 0 (n.n3 - 1) i j k = true := by
      simp only [FluxCT.inBox, Bool.and_eq_true, decide_eq_true_eq]; omega
    have b2 : FluxCT.inBox 0 (m.n1 - 1) 0 m.n2 0 (m.n3 - 1) (o.o1 + i) (o.o2 + j) (o.o3 + k) = true := by
      simp only [FluxCT.inBox, Bool.and_eq_true, decide_eq_true_eq]; omega
    funext q
    simp only [withB, FluxCT.fluxCT, b1, b2, if_true, add]
    rw [e3 i j k, e3 (i + 1) j k, e1 i j k, e1 i j (k + 1), h2 i j k] <;> omega
  · have b1 : FluxCT.inBox 0 (n.n1 - 1) 0 (n.n2 - 1) 0 n.n3 i j k = true := by
      simp only [FluxCT.inBox, Bool.and_eq_true, decide_eq_true_eq]; omega
    have b2 : FluxCT.inBox 0 (m.n1 - 1) 0 (m.n2 - 1) 0 m.n3 (o.o1 + i) (o.o2 + j) (o.o3 + k) = true := by
      simp only [FluxCT.inBox, Bool.and_eq_true, decide_eq_true_eq]; omega
    funext q
    simp only [withB, FluxCT.fluxCT, b1, b2, if_true, add]
    rw [e2 i j k, e2 (i + 1) j k, e1 i j k, e1 i (j + 1) k, h3 i j k] <;> omega

/-- A rank computes for its zones what a rank holding the whole grid computes. -/
theorem advance_sees (sol : Solver K) (Dt : K) (Pi Pb Ei Eb : ℤ → ℤ → ℤ → Prim K) (st st' : Stale K) (hi : Sees n o Pi Ei)
    (hb : Sees n o Pb Eb) (i j k : ℤ) (i0 : 0 ≤ i) (j0 : 0 ≤ j) (k0 : 0 ≤ k) (i1 : i < n.n1) (j1 : j < n.n2) (k1 : k < n.n3) :
    rankAdvance sol n o g Dt Pi Pb st i j k =
      rankAdvance sol m zeroOrigin g' Dt Ei Eb st' (o.o1 + i) (o.o2 + j) (o.o3 + k) := by
  have eI : Pi i j k = Ei (o.o1 + i) (o.o2 + j) (o.o3 + k) := hi i j k (by omega) (by omega) (by omega) (by omega) (by omega) (by omega)
  have eB : Pb i j k = Eb (o.o1 + i) (o.o2 + j) (o.o3 + k) := hb i j k (by omega) (by omega) (by omega) (by omega) (by omega) (by omega)
  have f := flux_sees w sol Pb Eb st st' hb
  have add : ∀ a b : ℤ, a + b + 1 = a + (b + 1) := fun a b => by ring
  have hU : newU sol o Dt Pi Pb (rankFlux sol n o g Pb st) i j k =
      newU sol zeroOrigin Dt Ei Eb (rankFlux sol m zeroOrigin g' Eb st') (o.o1 + i) (o.o2 + j) (o.o3 + k) := by
    funext q
    simp only [newU, Conserve.updZone, zeroOrigin, zero_add, add, ← eI, ← eB]
    have z1 := congrFun ((f i j k i0 j0 k0 (by omega) (by omega) (by omega)).1 j1 k1) q
    have z2 := congrFun ((f i j k i0 j0 k0 (by omega) (by omega) (by omega)).2.1 i1 k1) q
    have z3 := congrFun ((f i j k i0 j0 k0 (by omega) (by omega) (by omega)).2.2 i1 j1) q
    have y1 := congrFun ((f (i + 1) j k (by omega) j0 k0 (by omega) (by omega) (by omega)).1 j1 k1) q
    have y2 := congrFun ((f i (j + 1) k i0 (by omega) k0 (by omega) (by omega) (by omega)).2.1 i1 k1) q
    have y3 := congrFun ((f i j (k + 1) i0 j0 (by omega) (by omega) (by omega) (by omega)).2.2 i1 j1) q
    simp only [zeroOrigin] at z1 z2 z3 y1 y2 y3
    rw [z1, z2, z3, y1, y2, y3]
  simp only [rankAdvance, hU, eI, zeroOrigin, zero_add]

end window

end Nubhlight.FluidStep
