import Verif.Model.Reconstruct
import Verif.Common

set_option autoImplicit false

/-! # C03, C07, C09, C74: numerical flux, unsupported schemes, Courant limit, stencil width -/

namespace Nubhlight.Reconstruct

variable {K : Type*} [Field K] [LinearOrder K] [IsStrictOrderedRing K]

/-! ## C07 -/

omit [IsStrictOrderedRing K] in
/-- **C07.** A configuration whose reconstruction is marked broken (PPM) or unknown never returns face values:
the process exits; every other scheme returns values for every row and zone. -/
theorem C07_unsupported_exits (s : Scheme) (P : ℤ → K) (i : ℤ) :
    reconstruct s P i = .exit ↔ s = .ppm ∨ s = .other := by
  cases s <;> simp [reconstruct]

/-- **C07, kernels.** On uniform data the (unused) PPM kernel returns the data; the (unused) CS08 kernel
`para` divides zero by zero. -/
theorem C07_uniform (c : K) (i : ℤ) :
    ppmZone (fun _ => c) i = (c, c) ∧ para c c c c c = none := by
  constructor
  · have hf : ∀ i, ppmFace (fun _ : ℤ => c) i = c := by
      intro i
      simp only [ppmFace]
      have : (7 * (c + c) - (c + c)) / 12 = c := by ring
      rw [this, min_self, max_self, if_neg (by simp)]
    simp only [ppmZone, hf]
    have hz : 6 * (c - 2 * c + c) = 0 := by ring
    rw [hz]
    simp
  · have hf : ∀ b, paraFace b c c c c = c := by
      intro b
      simp only [paraFace]
      have : (7/12) * (c + c) - (1/12) * (c + c) = c := by ring
      have z : c - 2 * c + c = 0 := by ring
      rw [this, min_self, max_self, z]
      split_ifs <;> simp_all <;> ring
    simp only [para, hf]
    have hz : 6 * (c - 2 * c + c) = 0 := by ring
    rw [hz, if_pos (by simp), if_pos rfl]

/-! ## C74 -/

omit [IsStrictOrderedRing K] in
/-- **C74.** The reconstructed states used at the faces `0..N` (`P_r` of zone `i-1` and `P_l` of zone `i`)
depend only on the `N` active zones and the three ghost zones on each side. -/
theorem C74_stencil_in_ghosts (s : Scheme) (N : ℕ) (P Q : ℤ → K)
    (h : ∀ m : ℤ, -3 ≤ m → m ≤ N - 1 + 3 → P m = Q m) (i : ℤ) (h0 : 0 ≤ i) (h1 : i ≤ N) :
    reconstruct s P (i-1) = reconstruct s Q (i-1) ∧ reconstruct s P i = reconstruct s Q i := by
  have e : ∀ z : ℤ, -1 ≤ z → z ≤ N → reconstruct s P z = reconstruct s Q z := by
    intro z hz0 hz1
    have a := h (z-2) (by omega) (by omega)
    have b := h (z-1) (by omega) (by omega)
    have c := h z (by omega) (by omega)
    have d := h (z+1) (by omega) (by omega)
    have f := h (z+2) (by omega) (by omega)
    cases s <;> simp [reconstruct, linZone, a, b, c, d, f]
  exact ⟨e _ (by omega) (by omega), e _ (by omega) (by omega)⟩

/-- The bound is sharp: with only two ghost zones WENO could see unset data. -/
example : ∃ P Q : ℤ → ℚ, (∀ m : ℤ, -2 ≤ m → P m = Q m) ∧
    reconstruct .mp5 P (-1) ≠ reconstruct .mp5 Q (-1) :=
  ⟨fun _ => 0, fun m => if m = -3 then 1/10^7 else 0, by
    constructor
    · intro m hm; simp; omega
    · norm_num [reconstruct, mp5, mp5Sub, mp5SubEps, epsm, mp5Poly, minmod]⟩

/-! ## C03 -/

/-- **C03, consistency.** Equal states on both sides (same flux and same conserved value) give exactly the
physical flux, unless the face area vanishes, in which case flux and speed are zero. -/
theorem C03_consistent (small g F U a b a' b' : K) :
    (small ≤ g → (lrToFlux small g F F U U a b a' b').1 = F) ∧
    (g < small → lrToFlux small g F F U U a b a' b' = (0, 0)) := by
  unfold lrToFlux
  constructor
  · intro h; rw [if_neg (not_lt.2 h)]; simp; ring
  · intro h; rw [if_pos h]

omit [IsStrictOrderedRing K] in
/-- **C03, upwinding bound.** The signal speed is nonnegative, at least each side's right-going speed
and at least each side's left-going speed; and it is one of those (or zero). -/
theorem C03_speed_bounds (cmaxl cminl cmaxr cminr : K) [IsStrictOrderedRing K] :
    let c := ctop cmaxl cminl cmaxr cminr
    0 ≤ c ∧ cmaxl ≤ c ∧ cmaxr ≤ c ∧ -cminl ≤ c ∧ -cminr ≤ c ∧
    (c = 0 ∨ c = cmaxl ∨ c = cmaxr ∨ c = -cminl ∨ c = -cminr) := by
  intro c
  have n1 : 0 ≤ max (max 0 cmaxl) cmaxr := le_trans (le_max_left _ _) (le_max_left _ _)
  have n2 : 0 ≤ max (max 0 (-cminl)) (-cminr) := le_trans (le_max_left _ _) (le_max_left _ _)
  have hc : c = max (max (max 0 cmaxl) cmaxr) (max (max 0 (-cminl)) (-cminr)) := by
    simp only [c, ctop]; rw [abs_of_nonneg n1, abs_of_nonneg n2]
  rw [hc]
  refine ⟨le_trans n1 (le_max_left _ _),
    le_trans (le_trans (le_max_right _ _) (le_max_left _ _)) (le_max_left _ _),
    le_trans (le_max_right _ _) (le_max_left _ _),
    le_trans (le_trans (le_max_right _ _) (le_max_left _ _)) (le_max_right _ _),
    le_trans (le_max_right _ _) (le_max_right _ _), ?_⟩
  rcases max_choice (max (max 0 cmaxl) cmaxr) (max (max 0 (-cminl)) (-cminr)) with h | h <;> rw [h]
  · rcases max_choice (max 0 cmaxl) cmaxr with h | h <;> rw [h]
    · rcases max_choice 0 cmaxl with h | h <;> rw [h] <;> simp
    · simp
  · rcases max_choice (max 0 (-cminl)) (-cminr) with h | h <;> rw [h]
    · rcases max_choice 0 (-cminl) with h | h <;> rw [h] <;> simp
    · simp

omit [IsStrictOrderedRing K] in
/-- **C03, mirror.** Looking at the same face in a mirrored coordinate (states exchanged, fluxes reversed,
right-going and left-going speeds exchanged with opposite sign) gives the reversed flux and the same speed. -/
theorem C03_mirror [IsStrictOrderedRing K] (small g Fl Fr Ul Ur cmaxl cminl cmaxr cminr : K) :
    lrToFlux small g (-Fr) (-Fl) Ur Ul (-cminr) (-cmaxr) (-cminl) (-cmaxl)
      = (-(lrToFlux small g Fl Fr Ul Ur cmaxl cminl cmaxr cminr).1,
          (lrToFlux small g Fl Fr Ul Ur cmaxl cminl cmaxr cminr).2) := by
  have hc : ctop (-cminr) (-cmaxr) (-cminl) (-cmaxl) = ctop cmaxl cminl cmaxr cminr := by
    unfold ctop
    simp only [neg_neg]
    rw [max_comm]
    congr 2
    · rw [max_assoc, max_comm cmaxr, ← max_assoc]
    · rw [max_assoc, max_comm (-cminr), ← max_assoc]
  unfold lrToFlux
  rw [hc]
  split_ifs
  · simp
  · ext
    · simp only; ring
    · rfl

/-- **C03, dissipation.** The numerical flux differs from the mean physical flux by exactly half the speed
times the jump, against the gradient. -/
theorem C03_dissipation (small g Fl Fr Ul Ur a b a' b' : K) (h : small ≤ g) :
    (lrToFlux small g Fl Fr Ul Ur a b a' b').1 - (Fl + Fr) / 2 = -(ctop a b a' b') * (Ur - Ul) / 2 := by
  unfold lrToFlux; rw [if_neg (not_lt.2 h)]; simp only; ring

/-! ## Courant limit: C03 (last clause) and C09 -/

omit [Field K] [IsStrictOrderedRing K] in
theorem cmaxOf_ge (l : List K) (m : K) :
    m ≤ l.foldl (fun m c => if c > m then c else m) m ∧
    ∀ c ∈ l, c ≤ l.foldl (fun m c => if c > m then c else m) m := by
  induction l generalizing m with
  | nil => simp
  | cons x t ih =>
    obtain ⟨h1, h2⟩ := ih (if x > m then x else m)
    have hm : m ≤ (if x > m then x else m) := by split_ifs with h <;> [exact h.le; exact le_rfl]
    have hx : x ≤ (if x > m then x else m) := by split_ifs with h <;> [exact le_rfl; exact not_lt.1 h]
    rw [List.foldl_cons]
    refine ⟨le_trans hm h1, ?_⟩
    intro c hc
    rcases List.mem_cons.1 hc with rfl | hc
    · exact le_trans hx h1
    · exact h2 c hc

/-- **C03/C09, Courant.** With positive Courant number and spacings, the returned time step is positive and in
each direction no signal at any face crosses more than the Courant fraction of a zone; indeed the three crossing
fractions add up to exactly the Courant number for the fastest signals. (Hypothesis: some signal moves in each
direction; otherwise the C code divides by zero and gets an infinite directional limit.) -/
theorem C09_courant (cour dx1 dx2 dx3 : K) (s1 s2 s3 : List K) (hc : 0 < cour) (h1 : 0 < dx1) (h2 : 0 < dx2)
    (h3 : 0 < dx3) (p1 : ∃ c ∈ s1, 0 < c) (p2 : ∃ c ∈ s2, 0 < c) (p3 : ∃ c ∈ s3, 0 < c) :
    let dt := combinedDt cour dx1 dx2 dx3 (cmaxOf s1) (cmaxOf s2) (cmaxOf s3)
    0 < dt ∧ (∀ c ∈ s1, dt * c ≤ cour * dx1) ∧ (∀ c ∈ s2, dt * c ≤ cour * dx2) ∧ (∀ c ∈ s3, dt * c ≤ cour * dx3) ∧
    (∀ c1 ∈ s1, ∀ c2 ∈ s2, ∀ c3 ∈ s3, dt * (c1 / dx1 + c2 / dx2 + c3 / dx3) ≤ cour) := by
  have pos : ∀ s : List K, (∃ c ∈ s, 0 < c) → 0 < cmaxOf s := by
    rintro s ⟨c, hc, hp⟩
    exact lt_of_lt_of_le hp ((cmaxOf_ge s 0).2 c hc)
  have m1 := pos s1 p1
  have m2 := pos s2 p2
  have m3 := pos s3 p3
  have b1 := (cmaxOf_ge s1 0).2
  have b2 := (cmaxOf_ge s2 0).2
  have b3 := (cmaxOf_ge s3 0).2
  change ∀ c ∈ s1, c ≤ cmaxOf s1 at b1
  change ∀ c ∈ s2, c ≤ cmaxOf s2 at b2
  change ∀ c ∈ s3, c ≤ cmaxOf s3 at b3
  generalize cmaxOf s1 = C1 at *
  generalize cmaxOf s2 = C2 at *
  generalize cmaxOf s3 = C3 at *
  intro dt
  have hdt : dt = cour / (C1 / dx1 + C2 / dx2 + C3 / dx3) := by
    simp only [dt, combinedDt]
    have : 1 / (cour * dx1 / C1) + 1 / (cour * dx2 / C2) + 1 / (cour * dx3 / C3)
        = (C1 / dx1 + C2 / dx2 + C3 / dx3) / cour := by field_simp
    rw [this, one_div_div]
  have hS : 0 < C1 / dx1 + C2 / dx2 + C3 / dx3 := by positivity
  have hp : 0 < dt := by rw [hdt]; positivity
  have hsum : dt * (C1 / dx1 + C2 / dx2 + C3 / dx3) = cour := by rw [hdt]; field_simp
  have q1 : 0 < C1 / dx1 := by positivity
  have q2 : 0 < C2 / dx2 := by positivity
  have q3 : 0 < C3 / dx3 := by positivity
  refine ⟨hp, ?_, ?_, ?_, ?_⟩
  · intro c hc
    have : dt * (C1 / dx1) ≤ cour := by nlinarith [mul_pos hp q2, mul_pos hp q3]
    calc dt * c ≤ dt * C1 := by gcongr; exact b1 c hc
      _ = dt * (C1 / dx1) * dx1 := by field_simp
      _ ≤ cour * dx1 := by gcongr
  · intro c hc
    have : dt * (C2 / dx2) ≤ cour := by nlinarith [mul_pos hp q1, mul_pos hp q3]
    calc dt * c ≤ dt * C2 := by gcongr; exact b2 c hc
      _ = dt * (C2 / dx2) * dx2 := by field_simp
      _ ≤ cour * dx2 := by gcongr
  · intro c hc
    have : dt * (C3 / dx3) ≤ cour := by nlinarith [mul_pos hp q1, mul_pos hp q2]
    calc dt * c ≤ dt * C3 := by gcongr; exact b3 c hc
      _ = dt * (C3 / dx3) * dx3 := by field_simp
      _ ≤ cour * dx3 := by gcongr
  · intro c1 hc1 c2 hc2 c3 hc3
    calc dt * (c1 / dx1 + c2 / dx2 + c3 / dx3) ≤ dt * (C1 / dx1 + C2 / dx2 + C3 / dx3) := by
          gcongr <;> [exact b1 _ hc1; exact b2 _ hc2; exact b3 _ hc3]
      _ = cour := hsum

/-- Non-vacuity of C09. -/
example : combinedDt (1/2 : ℚ) 1 2 3 (cmaxOf [1/4, 1/2]) (cmaxOf [1]) (cmaxOf [3/4, 0]) = 2/5 := by
  norm_num [combinedDt, cmaxOf]

end Nubhlight.Reconstruct
