import Verif.Model.Reconstruct
import Verif.Common

set_option autoImplicit false

/-! # C05: WENO reconstruction -/

namespace Nubhlight.Reconstruct

variable {K : Type*} [Field K] [LinearOrder K] [IsStrictOrderedRing K]

theorem wenoEps_pos : (0:K) < wenoEps := by unfold wenoEps; positivity

/-- **C05, convexity.** For every stencil the weights of the right face are positive and sum to one. -/
theorem C05_weights_right (x1 x2 x3 x4 x5 : K) :
    let p := wenoRight x1 x2 x3 x4 x5
    0 < p.w0 ∧ 0 < p.w1 ∧ 0 < p.w2 ∧ p.w0 + p.w1 + p.w2 = 1 := by
  have he := wenoEps_pos (K := K)
  simp only [wenoRight]
  set b0 := 13/12 * (x1 - 2*x2 + x3)^2 + 1/4 * (x1 - 4*x2 + 3*x3)^2 with hb0
  set b1 := 13/12 * (x2 - 2*x3 + x4)^2 + 1/4 * (x4 - x2)^2 with hb1
  set b2 := 13/12 * (x3 - 2*x4 + x5)^2 + 1/4 * (x5 - 4*x4 + 3*x3)^2 with hb2
  have p0 : 0 ≤ b0 := by positivity
  have p1 : 0 ≤ b1 := by positivity
  have p2 : 0 ≤ b2 := by positivity
  refine ⟨by positivity, by positivity, by positivity, ?_⟩
  rw [← add_div, ← add_div, div_self]
  positivity

/-- **C05, mirror symmetry.** Mirroring the stencil exchanges the two face values (and weights). -/
theorem C05_mirror (x1 x2 x3 x4 x5 : K) :
    weno x5 x4 x3 x2 x1 = ((weno x1 x2 x3 x4 x5).2, (weno x1 x2 x3 x4 x5).1) := by
  have h : ∀ x1 x2 x3 x4 x5 : K, wenoLeft x5 x4 x3 x2 x1 = wenoRight x1 x2 x3 x4 x5 := by
    intro x1 x2 x3 x4 x5
    simp only [wenoLeft, wenoRight]
    have e0 : 13/12 * (x5 - 2*x4 + x3)^2 + 1/4 * (x5 - 4*x4 + 3*x3)^2
      = 13/12 * (x3 - 2*x4 + x5)^2 + 1/4 * (x5 - 4*x4 + 3*x3)^2 := by ring
    have e1 : 13/12 * (x4 - 2*x3 + x2)^2 + 1/4 * (x2 - x4)^2
      = 13/12 * (x2 - 2*x3 + x4)^2 + 1/4 * (x4 - x2)^2 := by ring
    have e2 : 13/12 * (x3 - 2*x2 + x1)^2 + 1/4 * (x1 - 4*x2 + 3*x3)^2
      = 13/12 * (x1 - 2*x2 + x3)^2 + 1/4 * (x1 - 4*x2 + 3*x3)^2 := by ring
    rw [e0, e1, e2]
  unfold weno
  rw [h, ← h x5 x4 x3 x2 x1]

/-- **C05, convexity, left face.** -/
theorem C05_weights_left (x1 x2 x3 x4 x5 : K) :
    let p := wenoLeft x1 x2 x3 x4 x5
    0 < p.w0 ∧ 0 < p.w1 ∧ 0 < p.w2 ∧ p.w0 + p.w1 + p.w2 = 1 := by
  have he := wenoEps_pos (K := K)
  simp only [wenoLeft]
  set b0 := 13/12 * (x1 - 2*x2 + x3)^2 + 1/4 * (x1 - 4*x2 + 3*x3)^2 with hb0
  set b1 := 13/12 * (x2 - 2*x3 + x4)^2 + 1/4 * (x4 - x2)^2 with hb1
  set b2 := 13/12 * (x3 - 2*x4 + x5)^2 + 1/4 * (x5 - 4*x4 + 3*x3)^2 with hb2
  have p0 : 0 ≤ b0 := by positivity
  have p1 : 0 ≤ b1 := by positivity
  have p2 : 0 ≤ b2 := by positivity
  refine ⟨by positivity, by positivity, by positivity, ?_⟩
  rw [← add_div, ← add_div, div_self]
  positivity

/-- **C05, range.** Each face value lies between the smallest and the largest of the three one-sided /
centred parabola values at that face (written out, not taken from the model). -/
theorem C05_face_in_candidate_range (x1 x2 x3 x4 x5 lo hi : K)
    (h0 : lo ≤ (3*x1 - 10*x2 + 15*x3)/8 ∧ (3*x1 - 10*x2 + 15*x3)/8 ≤ hi)
    (h1 : lo ≤ (-x2 + 6*x3 + 3*x4)/8 ∧ (-x2 + 6*x3 + 3*x4)/8 ≤ hi)
    (h2 : lo ≤ (3*x3 + 6*x4 - x5)/8 ∧ (3*x3 + 6*x4 - x5)/8 ≤ hi) :
    lo ≤ (weno x1 x2 x3 x4 x5).2 ∧ (weno x1 x2 x3 x4 x5).2 ≤ hi := by
  obtain ⟨w0, w1, w2, hs⟩ := C05_weights_right x1 x2 x3 x4 x5
  have v0 : (wenoRight x1 x2 x3 x4 x5).v0 = (3*x1 - 10*x2 + 15*x3)/8 := by simp only [wenoRight]; ring
  have v1 : (wenoRight x1 x2 x3 x4 x5).v1 = (-x2 + 6*x3 + 3*x4)/8 := by simp only [wenoRight]; ring
  have v2 : (wenoRight x1 x2 x3 x4 x5).v2 = (3*x3 + 6*x4 - x5)/8 := by simp only [wenoRight]; ring
  simp only [weno, WenoParts.value, v0, v1, v2]
  set a := (wenoRight x1 x2 x3 x4 x5).w0
  set b := (wenoRight x1 x2 x3 x4 x5).w1
  set c := (wenoRight x1 x2 x3 x4 x5).w2
  constructor
  · calc lo = lo * a + lo * b + lo * c := by rw [← mul_add, ← mul_add, hs, mul_one]
      _ ≤ _ := by gcongr <;> tauto
  · calc _ ≤ hi * a + hi * b + hi * c := by gcongr <;> tauto
      _ = hi := by rw [← mul_add, ← mul_add, hs, mul_one]

/-- **C05, range, left face.** -/
theorem C05_face_in_candidate_range_left (x1 x2 x3 x4 x5 lo hi : K)
    (h0 : lo ≤ (3*x5 - 10*x4 + 15*x3)/8 ∧ (3*x5 - 10*x4 + 15*x3)/8 ≤ hi)
    (h1 : lo ≤ (-x4 + 6*x3 + 3*x2)/8 ∧ (-x4 + 6*x3 + 3*x2)/8 ≤ hi)
    (h2 : lo ≤ (3*x3 + 6*x2 - x1)/8 ∧ (3*x3 + 6*x2 - x1)/8 ≤ hi) :
    lo ≤ (weno x1 x2 x3 x4 x5).1 ∧ (weno x1 x2 x3 x4 x5).1 ≤ hi := by
  have := C05_face_in_candidate_range x5 x4 x3 x2 x1 lo hi h0 h1 h2
  rwa [C05_mirror] at this

/-- **C05, exactness.** Data sampled from any quadratic polynomial `c0 + c1 s + c2 s²` at the zone positions
`s = -2,…,2` are evaluated exactly at the two faces `s = ∓1/2`. -/
theorem C05_quadratic_exact (c0 c1 c2 : K) :
    let p : K → K := fun s => c0 + c1 * s + c2 * s^2
    weno (p (-2)) (p (-1)) (p 0) (p 1) (p 2) = (p (-1/2), p (1/2)) := by
  intro p
  have hr := C05_face_in_candidate_range (p (-2)) (p (-1)) (p 0) (p 1) (p 2) (p (1/2)) (p (1/2))
    (by constructor <;> (apply le_of_eq; simp only [p]; ring))
    (by constructor <;> (apply le_of_eq; simp only [p]; ring))
    (by constructor <;> (apply le_of_eq; simp only [p]; ring))
  have hl := C05_face_in_candidate_range_left (p (-2)) (p (-1)) (p 0) (p 1) (p 2) (p (-1/2)) (p (-1/2))
    (by constructor <;> (apply le_of_eq; simp only [p]; ring))
    (by constructor <;> (apply le_of_eq; simp only [p]; ring))
    (by constructor <;> (apply le_of_eq; simp only [p]; ring))
  exact Prod.ext (le_antisymm hl.2 hl.1) (le_antisymm hr.2 hr.1)

/-- **C05, translation.** Adding a constant to the data adds it to both face values. -/
theorem C05_shift (x1 x2 x3 x4 x5 t : K) :
    weno (x1+t) (x2+t) (x3+t) (x4+t) (x5+t) = ((weno x1 x2 x3 x4 x5).1 + t, (weno x1 x2 x3 x4 x5).2 + t) := by
  have hr : ∀ x1 x2 x3 x4 x5 : K, (wenoRight (x1+t) (x2+t) (x3+t) (x4+t) (x5+t)).value
      = (wenoRight x1 x2 x3 x4 x5).value + t := by
    intro x1 x2 x3 x4 x5
    obtain ⟨_, _, _, hs⟩ := C05_weights_right x1 x2 x3 x4 x5
    have e : ∀ w0 w1 w2 v0 v1 v2 : K, w0 + w1 + w2 = 1 →
        (v0 + t) * w0 + (v1 + t) * w1 + (v2 + t) * w2 = v0 * w0 + v1 * w1 + v2 * w2 + t := by
      intro w0 w1 w2 v0 v1 v2 h
      linear_combination t * h
    have h2 : wenoRight (x1+t) (x2+t) (x3+t) (x4+t) (x5+t) =
        ⟨(wenoRight x1 x2 x3 x4 x5).v0 + t, (wenoRight x1 x2 x3 x4 x5).v1 + t, (wenoRight x1 x2 x3 x4 x5).v2 + t,
         (wenoRight x1 x2 x3 x4 x5).w0, (wenoRight x1 x2 x3 x4 x5).w1, (wenoRight x1 x2 x3 x4 x5).w2⟩ := by
      simp only [wenoRight]
      have s0 : x1 + t - 2*(x2+t) + (x3+t) = x1 - 2*x2 + x3 := by ring
      have s1 : x1 + t - 4*(x2+t) + 3*(x3+t) = x1 - 4*x2 + 3*x3 := by ring
      have s2 : x2 + t - 2*(x3+t) + (x4+t) = x2 - 2*x3 + x4 := by ring
      have s3 : x4 + t - (x2 + t) = x4 - x2 := by ring
      have s4 : x3 + t - 2*(x4+t) + (x5+t) = x3 - 2*x4 + x5 := by ring
      have s5 : x5 + t - 4*(x4+t) + 3*(x3+t) = x5 - 4*x4 + 3*x3 := by ring
      rw [s0, s1, s2, s3, s4, s5]
      congr 1 <;> ring
    rw [h2]
    simp only [WenoParts.value]
    exact e _ _ _ _ _ _ hs
  have hl : (wenoLeft (x1+t) (x2+t) (x3+t) (x4+t) (x5+t)).value = (wenoLeft x1 x2 x3 x4 x5).value + t := by
    have m1 := congrArg Prod.snd (C05_mirror (x1+t) (x2+t) (x3+t) (x4+t) (x5+t))
    have m2 := congrArg Prod.snd (C05_mirror x1 x2 x3 x4 x5)
    simp only [weno] at m1 m2
    rw [← m1, ← m2, hr]
  simp only [weno, hr, hl]

/-- Test of the definitions on data with a jump (not a proof): weights are computable rationals. -/
example : (weno (0:ℚ) 0 0 0 0) = (0, 0) := by norm_num [weno, WenoParts.value, wenoLeft, wenoRight, wenoEps]

end Nubhlight.Reconstruct
