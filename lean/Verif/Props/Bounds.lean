import Verif.Common
import Verif.Model.Bounds
import Mathlib.Tactic.FinCases

set_option autoImplicit false

/-! # C18, C20, C56: ghost zones of the distributed grid -/

set_option linter.unusedSectionVars false

namespace Nubhlight.Bounds

variable {V : Type*} {K : Type*} [Field K]

/-! ## Specification -/

/-- Zones of the whole grid in one direction. -/
def Dim.tot (d : Dim) : ℤ := d.N * d.C

/-- Sensible decompositions: a rank is at least as wide as the ghost region, or the direction is not decomposed;
periodicity is asked for on both sides or none; a periodic direction thinner than the ghost region has one zone. -/
structure Dim.WF (d : Dim) : Prop where
  N_pos : 1 ≤ d.N
  C_pos : 1 ≤ d.C
  thick : NG ≤ d.N → (d.left = .periodic ↔ d.right = .periodic)
  thin : d.N < NG → d.C = 1 ∧ (d.periodic = true → d.N = 1)

/-- The zone of the global grid a zone with global index `I` mirrors: itself inside, the nearest one for outflow (and
in a direction too thin to have its own boundary), the translate for periodic, the mirror image at a pole. -/
def src (d : Dim) (I : ℤ) : ℤ :=
  if I < 0 then
    if d.N < NG then 0 else match d.left with
      | .periodic => I + d.tot
      | .polar => -1 - I
      | _ => 0
  else if d.tot ≤ I then
    if d.N < NG then d.tot - 1 else match d.right with
      | .periodic => I - d.tot
      | .polar => 2 * d.tot - 1 - I
      | _ => d.tot - 1
  else I

/-- A ghost zone beyond a pole. -/
def BeyondPole (d : Dim) (J : ℤ) : Prop := NG ≤ d.N ∧ (J < 0 ∧ d.left = .polar ∨ d.tot ≤ J ∧ d.right = .polar)

instance (d : Dim) (J : ℤ) : Decidable (BeyondPole d J) := by unfold BeyondPole; infer_instance

/-- A zone seen across a pole: the polar components of velocity and field change sign, nothing else does. -/
def mirrored (v : Cell K) : Cell K :=
  ⟨fun q => if q ∈ ({3, 6} : Finset (Fin 8)) then -(v.prim q) else v.prim q, v.pflag⟩

/-- The copy `v` of a zone with metric determinant `g0` placed where the determinant is `g`: field times determinant is
the same, everything else is copied. -/
def carried (g0 g : K) (v : Cell K) : Cell K :=
  ⟨fun q => if q ∈ ({5, 6, 7} : Finset (Fin 8)) then g0 * v.prim q / g else v.prim q, v.pflag⟩

/-- Radial ghost zones: outflow keeps the magnetic flux (field times metric determinant), the problem's own boundary
is what the problem says. -/
def radial (cfg : Cfg K) (G : ℤ → ℤ → ℤ → Cell K) (I J Kk : ℤ) : Cell K :=
  let v := G (src cfg.d1 I) J Kk
  if cfg.d1.N < NG then v
  else if I < 0 then
    match cfg.d1.left with
    | .outflow => carried (cfg.gdet 0 J) (cfg.gdet I J) v
    | .prob => cfg.probL I J Kk
    | _ => v
  else if cfg.d1.tot ≤ I then
    match cfg.d1.right with
    | .outflow => carried (cfg.gdet (cfg.d1.tot - 1) J) (cfg.gdet I J) v
    | .prob => cfg.probR I J Kk
    | _ => v
  else v

/-- What zone `(I,J,K)` of the extended global grid should hold. -/
def expected (cfg : Cfg K) (G : ℤ → ℤ → ℤ → Cell K) (I J Kk : ℤ) : Cell K :=
  let v := radial cfg G I (src cfg.d2 J) (src cfg.d3 Kk)
  if BeyondPole cfg.d2 J then mirrored v else v

/-- The ranks' active zones together are the global array `G`. -/
def Represents (cfg : Cfg K) (W : World (Cell K)) (G : ℤ → ℤ → ℤ → Cell K) : Prop :=
  ∀ c1 c2 c3 i j k, (0 ≤ c1 ∧ c1 < cfg.d1.C) → (0 ≤ c2 ∧ c2 < cfg.d2.C) → (0 ≤ c3 ∧ c3 < cfg.d3.C) →
    act cfg.d1 i → act cfg.d2 j → act cfg.d3 k →
    W c1 c2 c3 i j k = G (glob cfg.d1 c1 i) (glob cfg.d2 c2 j) (glob cfg.d3 c3 k)

theorem flip_eq (v : Cell K) : flip v = mirrored v := by
  unfold flip mirrored
  congr 1
  funext q
  fin_cases q <;> simp

theorem rescale_eq (g0 g : K) (v : Cell K) : rescale (g0 / g) v = carried g0 g v := by
  unfold rescale carried
  congr 1
  funext q
  fin_cases q <;> simp <;> ring

/-! ## One direction -/

theorem line_thick (d : Dim) (fL fR : (ℤ → V) → ℤ → V) (a : ℤ → ℤ → V) (g eL eR : ℤ → V)
    (hN : NG ≤ d.N) (hC : 1 ≤ d.C)
    (hg : ∀ c i, 0 ≤ c → c < d.C → act d i → a c i = g (glob d c i))
    (hL : d.periodic = false → ∀ b : ℤ → V, (∀ i, act d i → b i = g (glob d 0 i)) → ∀ i, 0 ≤ i → i < NG →
      fL b i = eL (glob d 0 i))
    (hR : d.periodic = false → ∀ b : ℤ → V, (∀ i, act d i → b i = g (glob d (d.C - 1) i)) →
      ∀ i, d.N + NG ≤ i → i < d.N + 2 * NG → fR b i = eR (glob d (d.C - 1) i))
    (c i : ℤ) (hc0 : 0 ≤ c) (hc : c < d.C) (hi : all d i) :
    lineStage d fL fR a c i =
      if glob d c i < 0 then (if d.periodic then g (glob d c i + d.tot) else eL (glob d c i))
      else if d.tot ≤ glob d c i then (if d.periodic then g (glob d c i - d.tot) else eR (glob d c i))
      else g (glob d c i) := by
  obtain ⟨hi0, hi1⟩ := hi
  have hNG : NG = 3 := rfl
  have hNpos : 0 < d.N := by omega
  -- active zones are never changed
  have h1 : ∀ c i, 0 ≤ c → c < d.C → act d i → faceL fL a c i = g (glob d c i) := by
    intro c i h h' hi
    unfold faceL
    rw [if_neg (by unfold act at hi; omega)]; exact hg c i h h' hi
  have h2 : ∀ c i, 0 ≤ c → c < d.C → act d i → syncL d (faceL fL a) c i = g (glob d c i) := by
    intro c i h h' hi
    unfold syncL
    rw [if_neg (by unfold act at hi; omega)]; exact h1 c i h h' hi
  have h3 : ∀ c i, 0 ≤ c → c < d.C → act d i → faceR d fR (syncL d (faceL fL a)) c i = g (glob d c i) := by
    intro c i h h' hi
    unfold faceR
    rw [if_neg (by unfold act at hi; omega)]; exact h2 c i h h' hi
  have hcN : 0 ≤ c * d.N := mul_nonneg hc0 hNpos.le
  have hcN' : c * d.N + d.N ≤ d.tot := by
    unfold Dim.tot
    nlinarith
  by_cases hlow : i < NG
  · -- lower ghost zones
    have hL' : lineStage d fL fR a c i = syncL d (faceL fL a) c i := by
      unfold lineStage syncR
      rw [if_neg (by omega)]
      unfold faceR
      rw [if_neg (by omega)]
    rw [hL']
    unfold syncL
    rw [if_pos ⟨hi0, hlow⟩]
    by_cases hz : c = 0
    · subst hz
      have hneg : glob d 0 i < 0 := by unfold glob; omega
      rw [if_pos hneg]
      unfold Dim.leftOf
      rw [if_pos (by norm_num)]
      by_cases hp : d.periodic = true
      · rw [if_pos hp, if_pos hp]
        simp only
        rw [h1 _ _ (by omega) (by omega) (by unfold act; omega)]
        congr 1
        unfold glob Dim.tot; ring
      · rw [if_neg hp, if_neg hp]
        simp only
        unfold faceL
        rw [if_pos ⟨rfl, hi0, hlow⟩]
        exact hL (by simpa using hp) _ (fun i hi => hg 0 i le_rfl (by omega) hi) i hi0 hlow
    · have hge : ¬ glob d c i < 0 := by
        unfold glob
        have : d.N ≤ c * d.N := by nlinarith [show 1 ≤ c by omega]
        omega
      rw [if_neg hge, if_neg (by unfold glob; omega)]
      unfold Dim.leftOf
      rw [if_neg (by omega)]
      simp only
      rw [h1 _ _ (by omega) (by omega) (by unfold act; omega)]
      congr 1
      unfold glob; ring
  · by_cases hhigh : d.N + NG ≤ i
    · unfold lineStage syncR
      rw [if_pos ⟨hhigh, hi1⟩]
      have hge : ¬ glob d c i < 0 := by unfold glob; omega
      rw [if_neg hge]
      by_cases hz : c = d.C - 1
      · subst hz
        have hbig : d.tot ≤ glob d (d.C - 1) i := by
          unfold glob Dim.tot
          have : (d.C - 1) * d.N = d.N * d.C - d.N := by ring
          omega
        rw [if_pos hbig]
        unfold Dim.rightOf
        rw [if_pos (by omega)]
        by_cases hp : d.periodic = true
        · rw [if_pos hp, if_pos hp]
          simp only
          rw [h3 _ _ le_rfl (by omega) (by unfold act; omega)]
          congr 1
          unfold glob Dim.tot; ring
        · rw [if_neg hp, if_neg hp]
          simp only
          unfold faceR
          rw [if_pos ⟨rfl, hhigh, hi1⟩]
          exact hR (by simpa using hp) _ (fun i hi => h2 _ i (by omega) (by omega) hi) i hhigh hi1
      · have hsm : ¬ d.tot ≤ glob d c i := by
          unfold glob Dim.tot
          have : (c + 2) * d.N ≤ d.N * d.C := by nlinarith [show c + 2 ≤ d.C by omega]
          have h' : (c + 2) * d.N = c * d.N + 2 * d.N := by ring
          omega
        rw [if_neg hsm]
        unfold Dim.rightOf
        rw [if_neg (by omega)]
        simp only
        rw [h3 _ _ (by omega) (by omega) (by unfold act; omega)]
        congr 1
        unfold glob; ring
    · have hact : act d i := by unfold act; omega
      unfold lineStage syncR
      rw [if_neg (by omega), h3 c i hc0 hc hact, if_neg (by unfold glob; omega), if_neg (by unfold glob; omega)]

theorem line_thin (d : Dim) (fL fR : (ℤ → V) → ℤ → V) (a : ℤ → ℤ → V) (g : ℤ → V)
    (hN : d.N < NG) (hN1 : 1 ≤ d.N) (hC : d.C = 1) (hp : d.periodic = true → d.N = 1)
    (hg : ∀ i, act d i → a 0 i = g (glob d 0 i))
    (hL : ∀ b i, fL b i = b NG) (hR : ∀ b i, fR b i = b (d.N - 1 + NG))
    (i : ℤ) (hi : all d i) :
    lineStage d fL fR a 0 i =
      if glob d 0 i < 0 then g 0 else if d.tot ≤ glob d 0 i then g (d.tot - 1) else g (glob d 0 i) := by
  obtain ⟨hi0, hi1⟩ := hi
  have hNG : NG = 3 := rfl
  have htot : d.tot = d.N := by unfold Dim.tot; rw [hC]; ring
  -- first active zone and last active zone
  have hfirst : a 0 NG = g 0 := by
    rw [hg NG (by unfold act; omega)]; congr 1; unfold glob; omega
  have hlast : a 0 (d.N - 1 + NG) = g (d.tot - 1) := by
    rw [hg _ (by unfold act; omega)]; congr 1; unfold glob; omega
  have h1 : ∀ i, 0 ≤ i → i < d.N + NG → faceL fL a 0 i = if i < NG then g 0 else g (glob d 0 i) := by
    intro i h h'
    unfold faceL
    by_cases hlt : i < NG
    · rw [if_pos ⟨rfl, h, hlt⟩, if_pos hlt, hL, hfirst]
    · rw [if_neg (by omega), if_neg hlt, hg i (by unfold act; omega)]
  have h2 : ∀ i, 0 ≤ i → i < d.N + NG → syncL d (faceL fL a) 0 i = if i < NG then g 0 else g (glob d 0 i) := by
    intro i h h'
    unfold syncL
    by_cases hlt : i < NG
    · rw [if_pos ⟨h, hlt⟩]
      unfold Dim.leftOf
      rw [if_pos (by norm_num)]
      by_cases hpp : d.periodic = true
      · rw [if_pos hpp, if_pos hlt]
        simp only
        have hone := hp hpp
        rw [hC]
        norm_num
        rw [h1 _ (by omega) (by omega)]
        split_ifs with h5
        · rfl
        · congr 1; unfold glob; omega
      · rw [if_neg hpp]
        simp only
        rw [h1 i h (by omega)]
    · rw [if_neg (by omega), h1 i h h']
  have h3 : ∀ i, 0 ≤ i → i < d.N + 2 * NG → faceR d fR (syncL d (faceL fL a)) 0 i =
      if i < NG then g 0 else if d.N + NG ≤ i then g (d.tot - 1) else g (glob d 0 i) := by
    intro i h h'
    unfold faceR
    by_cases hlt : d.N + NG ≤ i
    · rw [if_pos ⟨by omega, hlt, h'⟩, if_neg (by omega), if_pos hlt, hR, h2 _ (by omega) (by omega), if_neg (by omega)]
      congr 1; unfold glob; omega
    · rw [if_neg (by omega), h2 i h (by omega), if_neg hlt]
  have h4 : lineStage d fL fR a 0 i =
      if i < NG then g 0 else if d.N + NG ≤ i then g (d.tot - 1) else g (glob d 0 i) := by
    unfold lineStage syncR
    by_cases hlt : d.N + NG ≤ i
    · rw [if_pos ⟨hlt, hi1⟩]
      unfold Dim.rightOf
      rw [if_pos (by omega)]
      by_cases hpp : d.periodic = true
      · rw [if_pos hpp]
        simp only
        have hone := hp hpp
        rw [h3 _ (by omega) (by omega), if_neg (by omega), if_neg (by omega : ¬ i < NG), if_pos hlt]
        split_ifs with h5
        · rfl
        · congr 1; unfold glob; omega
      · rw [if_neg hpp]
        simp only
        rw [h3 i hi0 hi1]
    · rw [if_neg (by omega), h3 i hi0 hi1]
  rw [h4]
  have hgl : glob d 0 i = i - NG := by unfold glob; ring
  rw [hgl]
  by_cases hlt : i < NG
  · rw [if_pos hlt, if_pos (by omega)]
  · rw [if_neg hlt, if_neg (by omega : ¬ i - NG < 0)]
    by_cases h5 : d.N + NG ≤ i
    · rw [if_pos h5, if_pos (by omega)]
    · rw [if_neg h5, if_neg (by omega)]

/-! ## Three directions -/

theorem stage1_spec (cfg : Cfg K) (W : World (Cell K)) (G : ℤ → ℤ → ℤ → Cell K) (h1 : cfg.d1.WF)
    (hW : Represents cfg W G) {fL fR} (hL : fillX1L cfg = some fL) (hR : fillX1R cfg = some fR)
    (c1 c2 c3 i j k : ℤ) (hc1 : 0 ≤ c1 ∧ c1 < cfg.d1.C) (hc2 : 0 ≤ c2 ∧ c2 < cfg.d2.C) (hc3 : 0 ≤ c3 ∧ c3 < cfg.d3.C)
    (hi : all cfg.d1 i) (hj : act cfg.d2 j) (hk : act cfg.d3 k) :
    stage1 cfg fL fR W c1 c2 c3 i j k =
      radial cfg G (glob cfg.d1 c1 i) (glob cfg.d2 c2 j) (glob cfg.d3 c3 k) := by
  have hNG : NG = 3 := rfl
  unfold stage1
  rw [if_pos ⟨hj, hk⟩]
  set J := glob cfg.d2 c2 j
  set Kk := glob cfg.d3 c3 k
  have hgl : ∀ c i, 0 ≤ c → c < cfg.d1.C → act cfg.d1 i → W c c2 c3 i j k = G (glob cfg.d1 c i) J Kk :=
    fun c i h h' hi => hW c c2 c3 i j k ⟨h, h'⟩ hc2 hc3 hi hj hk
  by_cases hN : cfg.d1.N < NG
  · obtain ⟨hC, hp⟩ := h1.thin hN
    have hz : c1 = 0 := by omega
    subst hz
    simp only [fillX1L, fillX1R, if_pos hN, Option.some.injEq] at hL hR
    rw [line_thin cfg.d1 (fL J Kk) (fR J Kk) _ (fun I => G I J Kk) hN h1.N_pos hC hp
      (fun i hi => hgl 0 i le_rfl hc1.2 hi) (by intro b i; rw [← hL]) (by intro b i; rw [← hR]) i hi]
    simp only [radial, src, if_pos hN]
    split_ifs <;> rfl
  · have hN' : NG ≤ cfg.d1.N := by omega
    rw [line_thick cfg.d1 (fL J Kk) (fR J Kk) _ (fun I => G I J Kk) (fun I => radial cfg G I J Kk)
      (fun I => radial cfg G I J Kk) hN' h1.C_pos hgl ?_ ?_ c1 i hc1.1 hc1.2 hi]
    · have hper := h1.thick hN'
      by_cases hneg : glob cfg.d1 c1 i < 0
      · rw [if_pos hneg]
        by_cases hp : cfg.d1.periodic = true
        · have hleft : cfg.d1.left = .periodic := by
            simp only [Dim.periodic, decide_eq_true_eq] at hp; exact hp.1
          rw [if_pos hp]
          simp only [radial, src, if_neg hN, if_pos hneg, hleft]
        · rw [if_neg hp]
      · rw [if_neg hneg]
        by_cases hbig : cfg.d1.tot ≤ glob cfg.d1 c1 i
        · rw [if_pos hbig]
          by_cases hp : cfg.d1.periodic = true
          · have hright : cfg.d1.right = .periodic := by
              simp only [Dim.periodic, decide_eq_true_eq] at hp; exact hp.2
            rw [if_pos hp]
            simp only [radial, src, if_neg hN, if_neg hneg, if_pos hbig, hright]
          · rw [if_neg hp]
        · rw [if_neg hbig]
          simp only [radial, src, if_neg hN, if_neg hneg, if_neg hbig]
    · intro hp b hb i hi0 hi1
      have hneg : glob cfg.d1 0 i < 0 := by unfold glob; omega
      have hfirst : b NG = G 0 J Kk := by
        rw [hb NG (by unfold act; omega)]
        congr 1; unfold glob; omega
      have hg0 : glob cfg.d1 0 NG = 0 := by unfold glob; omega
      simp only [fillX1L, if_neg hN] at hL
      have hper := h1.thick hN'
      simp only [Dim.periodic, decide_eq_false_iff_not] at hp
      cases hl : cfg.d1.left <;> simp only [hl] at hL <;>
        first
        | (exfalso; simp [hl, hper.1 hl] at hp; done)
        | (simp only [Option.some.injEq] at hL; rw [← hL]; simp only [radial, src, if_neg hN, if_pos hneg, hl, hfirst, hg0, rescale_eq])
        | simp at hL
    · intro hp b hb i hi0 hi1
      have htot : (cfg.d1.C - 1) * cfg.d1.N = cfg.d1.tot - cfg.d1.N := by unfold Dim.tot; ring
      have htp : cfg.d1.N ≤ cfg.d1.tot := by
        unfold Dim.tot; nlinarith [h1.C_pos]
      have hneg : ¬ glob cfg.d1 (cfg.d1.C - 1) i < 0 := by unfold glob; omega
      have hbig : cfg.d1.tot ≤ glob cfg.d1 (cfg.d1.C - 1) i := by unfold glob; omega
      have hg0 : glob cfg.d1 (cfg.d1.C - 1) (cfg.d1.N - 1 + NG) = cfg.d1.tot - 1 := by unfold glob; omega
      have hlast : b (cfg.d1.N - 1 + NG) = G (cfg.d1.tot - 1) J Kk := by
        rw [hb _ (by unfold act; omega), hg0]
      simp only [fillX1R, if_neg hN] at hR
      have hper := h1.thick hN'
      simp only [Dim.periodic, decide_eq_false_iff_not] at hp
      cases hl : cfg.d1.right <;> simp only [hl] at hR <;>
        first
        | (exfalso; simp [hl, hper.2 hl] at hp; done)
        | (simp only [Option.some.injEq] at hR; rw [← hR]
           simp only [radial, src, if_neg hN, if_neg hneg, if_pos hbig, hl, hlast, hg0, rescale_eq])
        | simp at hR

/-- Value of a zone along a polar-angle line with global line `g`. -/
def polarLine (d : Dim) (g : ℤ → Cell K) (J : ℤ) : Cell K :=
  if BeyondPole d J then mirrored (g (src d J)) else g (src d J)

theorem line2_spec (d : Dim) (hd : d.WF) {fL fR : (ℤ → Cell K) → ℤ → Cell K} (hL : fillX2L d = some fL)
    (hR : fillX2R d = some fR) (a : ℤ → ℤ → Cell K) (g : ℤ → Cell K)
    (hg : ∀ c i, 0 ≤ c → c < d.C → act d i → a c i = g (glob d c i)) (c i : ℤ) (hc0 : 0 ≤ c) (hc : c < d.C)
    (hi : all d i) : lineStage d fL fR a c i = polarLine d g (glob d c i) := by
  have hNG : NG = 3 := rfl
  by_cases hN : d.N < NG
  · obtain ⟨hC, hp⟩ := hd.thin hN
    have hz : c = 0 := by omega
    subst hz
    simp only [fillX2L, fillX2R, if_pos hN, Option.some.injEq] at hL hR
    rw [line_thin d fL fR _ g hN hd.N_pos hC hp
      (fun i hi => hg 0 i le_rfl hc hi) (by intro b i; rw [← hL]) (by intro b i; rw [← hR]) i hi]
    have : ¬ BeyondPole d (glob d 0 i) := by rintro ⟨h, _⟩; omega
    simp only [polarLine, if_neg this, src, if_pos hN]
    split_ifs <;> rfl
  · have hN' : NG ≤ d.N := by omega
    have hper := hd.thick hN'
    rw [line_thick d fL fR _ g (polarLine d g) (polarLine d g) hN' hd.C_pos hg ?_ ?_ c i hc0 hc hi]
    · by_cases hneg : glob d c i < 0
      · rw [if_pos hneg]
        by_cases hp : d.periodic = true
        · have hleft : d.left = .periodic := by
            simp only [Dim.periodic, decide_eq_true_eq] at hp; exact hp.1
          have hright := hper.1 hleft
          rw [if_pos hp]
          have hb : ¬ BeyondPole d (glob d c i) := by simp [BeyondPole, hleft, hright]
          simp only [polarLine, if_neg hb, src, if_neg hN, if_pos hneg, hleft]
        · rw [if_neg hp]
      · rw [if_neg hneg]
        by_cases hbig : d.tot ≤ glob d c i
        · rw [if_pos hbig]
          by_cases hp : d.periodic = true
          · have hright : d.right = .periodic := by
              simp only [Dim.periodic, decide_eq_true_eq] at hp; exact hp.2
            rw [if_pos hp]
            have hb : ¬ BeyondPole d (glob d c i) := by simp [BeyondPole, hright, hper.2 hright]
            simp only [polarLine, if_neg hb, src, if_neg hN, if_neg hneg, if_pos hbig, hright]
          · rw [if_neg hp]
        · rw [if_neg hbig]
          have hb : ¬ BeyondPole d (glob d c i) := by simp [BeyondPole, hneg, hbig]
          simp only [polarLine, if_neg hb, src, if_neg hneg, if_neg hbig]
    · intro hp b hb i hi0 hi1
      have hneg : glob d 0 i < 0 := by unfold glob; omega
      have hfirst : b NG = g 0 := by
        rw [hb NG (by unfold act; omega)]
        congr 1; unfold glob; omega
      have hmir : b (-i + 2 * NG - 1) = g (-1 - glob d 0 i) := by
        rw [hb _ (by unfold act; omega)]
        congr 1; unfold glob; omega
      have hbig : ¬ d.tot ≤ glob d 0 i := by
        have : 0 ≤ d.tot := by unfold Dim.tot; exact mul_nonneg (by omega) (by have := hd.C_pos; omega)
        omega
      simp only [fillX2L, if_neg hN] at hL
      simp only [Dim.periodic, decide_eq_false_iff_not] at hp
      cases hl : d.left <;> simp only [hl] at hL <;>
        first
        | (exfalso; simp [hl, hper.1 hl] at hp; done)
        | (simp only [Option.some.injEq] at hL; rw [← hL]
           simp only [polarLine, src, BeyondPole, if_neg hN, if_pos hneg, hl, hfirst, hmir, flip_eq]; simp [hneg, hN', hbig]; done)
        | simp at hL
    · intro hp b hb i hi0 hi1
      have htot : (d.C - 1) * d.N = d.tot - d.N := by unfold Dim.tot; ring
      have htp : d.N ≤ d.tot := by
        unfold Dim.tot; nlinarith [hd.C_pos]
      have hneg : ¬ glob d (d.C - 1) i < 0 := by unfold glob; omega
      have hbig : d.tot ≤ glob d (d.C - 1) i := by unfold glob; omega
      have hlast : b (d.N - 1 + NG) = g (d.tot - 1) := by
        rw [hb _ (by unfold act; omega)]
        congr 1; unfold glob; omega
      have hmir : b (-i + 2 * (d.N + NG) - 1) = g (2 * d.tot - 1 - glob d (d.C - 1) i) := by
        rw [hb _ (by unfold act; omega)]
        congr 1; unfold glob; omega
      simp only [fillX2R, if_neg hN] at hR
      simp only [Dim.periodic, decide_eq_false_iff_not] at hp
      cases hl : d.right <;> simp only [hl] at hR <;>
        first
        | (exfalso; simp [hl, hper.2 hl] at hp; done)
        | (simp only [Option.some.injEq] at hR; rw [← hR]
           simp only [polarLine, src, BeyondPole, if_neg hN, if_neg hneg, if_pos hbig, hl, hlast, hmir, flip_eq]
           simp [hneg, hN', hbig]; done)
        | simp at hR

/-- The zone the code copies in the azimuthal direction: as `src`, except that upper outflow ghosts copy the first
active zone of the last rank. -/
def src3 (d : Dim) (I : ℤ) : ℤ :=
  if NG ≤ d.N ∧ d.right = .outflow ∧ d.tot ≤ I then d.tot - d.N else src d I

theorem line3_spec (d : Dim) (hd : d.WF)
    {fL fR : (ℤ → Cell K) → ℤ → Cell K} (hL : fillX3L d = some fL)
    (hR : fillX3R d = some fR) (a : ℤ → ℤ → Cell K) (g : ℤ → Cell K)
    (hg : ∀ c i, 0 ≤ c → c < d.C → act d i → a c i = g (glob d c i)) (c i : ℤ) (hc0 : 0 ≤ c) (hc : c < d.C)
    (hi : all d i) : lineStage d fL fR a c i = g (src3 d (glob d c i)) := by
  have hNG : NG = 3 := rfl
  by_cases hN : d.N < NG
  · obtain ⟨hC, hp⟩ := hd.thin hN
    have hz : c = 0 := by omega
    subst hz
    simp only [fillX3L, fillX3R, if_pos hN, Option.some.injEq] at hL hR
    rw [line_thin d fL fR _ g hN hd.N_pos hC hp
      (fun i hi => hg 0 i le_rfl hc hi) (by intro b i; rw [← hL]) (by intro b i; rw [← hR]) i hi]
    have hs3 : src3 d (glob d 0 i) = src d (glob d 0 i) := if_neg (fun h => absurd h.1 (by omega))
    rw [hs3]
    simp only [src, if_pos hN]
    split_ifs <;> rfl
  · have hN' : NG ≤ d.N := by omega
    have hper := hd.thick hN'
    rw [line_thick d fL fR _ g (fun I => g (src3 d I)) (fun I => g (src3 d I)) hN' hd.C_pos hg ?_ ?_ c i hc0 hc hi]
    · by_cases hneg : glob d c i < 0
      · rw [if_pos hneg]
        by_cases hp : d.periodic = true
        · have hleft : d.left = .periodic := by
            simp only [Dim.periodic, decide_eq_true_eq] at hp; exact hp.1
          rw [if_pos hp]
          have hr := hper.1 hleft
          simp [src3, src, if_neg hN, if_pos hneg, hleft, hr]
        · rw [if_neg hp]
      · rw [if_neg hneg]
        by_cases hbig : d.tot ≤ glob d c i
        · rw [if_pos hbig]
          by_cases hp : d.periodic = true
          · have hright : d.right = .periodic := by
              simp only [Dim.periodic, decide_eq_true_eq] at hp; exact hp.2
            rw [if_pos hp]
            simp [src3, src, if_neg hN, if_neg hneg, if_pos hbig, hright]
          · rw [if_neg hp]
        · rw [if_neg hbig]
          simp [src3, src, hneg, hbig]
    · intro hp b hb i hi0 hi1
      have hneg : glob d 0 i < 0 := by unfold glob; omega
      have hfirst : b NG = g 0 := by
        rw [hb NG (by unfold act; omega)]
        congr 1; unfold glob; omega
      have hnb : ¬ d.tot ≤ glob d 0 i := by
        have : 0 ≤ d.tot := by unfold Dim.tot; exact mul_nonneg (by omega) (by have := hd.C_pos; omega)
        omega
      simp only [fillX3L, if_neg hN] at hL
      simp only [Dim.periodic, decide_eq_false_iff_not] at hp
      cases hl : d.left <;> simp only [hl] at hL <;>
        first
        | (exfalso; simp [hl, hper.1 hl] at hp; done)
        | (simp only [Option.some.injEq] at hL; rw [← hL]; simp [src3, hnb, src, if_neg hN, if_pos hneg, hl, hfirst]; done)
        | simp at hL
    · intro hp b hb i hi0 hi1
      have htot : (d.C - 1) * d.N = d.tot - d.N := by unfold Dim.tot; ring
      have hbig : d.tot ≤ glob d (d.C - 1) i := by unfold glob; omega
      have hfirst : b NG = g (d.tot - d.N) := by
        rw [hb NG (by unfold act; omega)]
        congr 1; unfold glob; omega
      simp only [fillX3R, if_neg hN] at hR
      simp only [Dim.periodic, decide_eq_false_iff_not] at hp
      cases hl : d.right <;> simp only [hl] at hR <;>
        first
        | (exfalso; simp [hl, hper.2 hl] at hp; done)
        | (simp only [Option.some.injEq] at hR; rw [← hR]
           simp only [src3, hl, hN', hbig, and_self, if_true]; exact hfirst)
        | simp at hR

/-- What the code leaves in zone `(I,J,K)` of the extended grid. -/
def actual (cfg : Cfg K) (G : ℤ → ℤ → ℤ → Cell K) (I J Kk : ℤ) : Cell K :=
  polarLine cfg.d2 (fun J => radial cfg G I J (src3 cfg.d3 Kk)) J

theorem boundPrim_actual (cfg : Cfg K) (W W' : World (Cell K)) (G : ℤ → ℤ → ℤ → Cell K)
    (h1 : cfg.d1.WF) (h2 : cfg.d2.WF) (h3 : cfg.d3.WF)
    (hW : Represents cfg W G) (hrun : boundPrim cfg W = some W')
    (c1 c2 c3 i j k : ℤ) (hc1 : 0 ≤ c1 ∧ c1 < cfg.d1.C) (hc2 : 0 ≤ c2 ∧ c2 < cfg.d2.C) (hc3 : 0 ≤ c3 ∧ c3 < cfg.d3.C)
    (hi : all cfg.d1 i) (hj : all cfg.d2 j) (hk : all cfg.d3 k) :
    W' c1 c2 c3 i j k = actual cfg G (glob cfg.d1 c1 i) (glob cfg.d2 c2 j) (glob cfg.d3 c3 k) := by
  simp only [boundPrim, Option.bind_eq_bind, Option.bind_eq_some_iff, Option.some.injEq] at hrun
  obtain ⟨f1L, e1L, f1R, e1R, f2L, e2L, f2R, e2R, f3L, e3L, f3R, e3R, rfl⟩ := hrun
  rw [stage3, if_pos ⟨hi, hj⟩]
  rw [line3_spec cfg.d3 h3 e3L e3R _
    (fun Kk => polarLine cfg.d2 (fun J => radial cfg G (glob cfg.d1 c1 i) J Kk) (glob cfg.d2 c2 j)) ?_ c3 k hc3.1 hc3.2 hk]
  · rfl
  · intro c k hc0 hc hk
    rw [stage2, if_pos ⟨hi, hk⟩]
    rw [line2_spec cfg.d2 h2 e2L e2R _ (fun J => radial cfg G (glob cfg.d1 c1 i) J (glob cfg.d3 c k)) ?_ c2 j hc2.1 hc2.2 hj]
    intro c' j hc0' hc' hj
    exact stage1_spec cfg W G h1 hW e1L e1R c1 c' c i j k hc1 ⟨hc0', hc'⟩ ⟨hc0, hc⟩ hi hj hk

/-- **C18 (ghost zones).** For every decomposition, every combination of supported boundary conditions and every
state: after the boundary update every zone of every rank, ghosts, edges and corners included, holds exactly what the
extended global grid prescribes. Missing part: outflow on the upper azimuthal side, which the code gets wrong
(`C18_upper_azimuthal_outflow`). -/
theorem C18_ghosts_partial (cfg : Cfg K) (W W' : World (Cell K)) (G : ℤ → ℤ → ℤ → Cell K)
    (h1 : cfg.d1.WF) (h2 : cfg.d2.WF) (h3 : cfg.d3.WF) (hout : cfg.d3.right = .outflow → cfg.d3.N < NG)
    (hW : Represents cfg W G) (hrun : boundPrim cfg W = some W')
    (c1 c2 c3 i j k : ℤ) (hc1 : 0 ≤ c1 ∧ c1 < cfg.d1.C) (hc2 : 0 ≤ c2 ∧ c2 < cfg.d2.C) (hc3 : 0 ≤ c3 ∧ c3 < cfg.d3.C)
    (hi : all cfg.d1 i) (hj : all cfg.d2 j) (hk : all cfg.d3 k) :
    W' c1 c2 c3 i j k = expected cfg G (glob cfg.d1 c1 i) (glob cfg.d2 c2 j) (glob cfg.d3 c3 k) := by
  rw [boundPrim_actual cfg W W' G h1 h2 h3 hW hrun c1 c2 c3 i j k hc1 hc2 hc3 hi hj hk]
  have : src3 cfg.d3 (glob cfg.d3 c3 k) = src cfg.d3 (glob cfg.d3 c3 k) := by
    unfold src3
    rw [if_neg]
    rintro ⟨h, h', -⟩
    exact absurd (hout h') (by omega)
  unfold actual expected polarLine
  rw [this]

theorem glob_inside (d : Dim) (hd : d.WF) (c i : ℤ) (hc : 0 ≤ c ∧ c < d.C) (hi : act d i) :
    0 ≤ glob d c i ∧ glob d c i < d.tot := by
  unfold act at hi
  unfold glob Dim.tot
  have := hd.N_pos
  constructor
  · have : 0 ≤ c * d.N := mul_nonneg hc.1 (by omega)
    omega
  · have : (c + 1) * d.N ≤ d.N * d.C := by nlinarith [show c + 1 ≤ d.C by omega]
    have h' : (c + 1) * d.N = c * d.N + d.N := by ring
    omega

theorem all_of_act {d : Dim} {i : ℤ} (h : act d i) : all d i := by
  have hNG : NG = 3 := rfl
  unfold act at h; unfold all; omega

theorem actual_inside (cfg : Cfg K) (G : ℤ → ℤ → ℤ → Cell K) (I J Kk : ℤ) (hI : 0 ≤ I ∧ I < cfg.d1.tot)
    (hJ : 0 ≤ J ∧ J < cfg.d2.tot) (hK : 0 ≤ Kk ∧ Kk < cfg.d3.tot) : actual cfg G I J Kk = G I J Kk := by
  have e1 : src cfg.d1 I = I := by unfold src; rw [if_neg (by omega), if_neg (by omega)]
  have e2 : src cfg.d2 J = J := by unfold src; rw [if_neg (by omega), if_neg (by omega)]
  have e3 : src3 cfg.d3 Kk = Kk := by
    unfold src3 src; rw [if_neg (by omega), if_neg (by omega), if_neg (by omega)]
  have hb : ¬ BeyondPole cfg.d2 J := by rintro ⟨-, h | h⟩ <;> omega
  unfold actual polarLine
  rw [if_neg hb, e2, e3]
  unfold radial
  rw [e1]
  simp only
  rw [if_neg (by omega : ¬ I < 0), if_neg (by omega : ¬ cfg.d1.tot ≤ I)]
  split_ifs <;> rfl

/-- **C18 (active zones).** The boundary update changes no active zone, whatever the boundary conditions. -/
theorem C18_active_unchanged (cfg : Cfg K) (W W' : World (Cell K))
    (h1 : cfg.d1.WF) (h2 : cfg.d2.WF) (h3 : cfg.d3.WF) (hrun : boundPrim cfg W = some W')
    (c1 c2 c3 i j k : ℤ) (hc1 : 0 ≤ c1 ∧ c1 < cfg.d1.C) (hc2 : 0 ≤ c2 ∧ c2 < cfg.d2.C) (hc3 : 0 ≤ c3 ∧ c3 < cfg.d3.C)
    (hi : act cfg.d1 i) (hj : act cfg.d2 j) (hk : act cfg.d3 k) :
    W' c1 c2 c3 i j k = W c1 c2 c3 i j k := by
  -- the global array assembled from the ranks
  let G : ℤ → ℤ → ℤ → Cell K := fun I J Kk =>
    W (I / cfg.d1.N) (J / cfg.d2.N) (Kk / cfg.d3.N) (I % cfg.d1.N + NG) (J % cfg.d2.N + NG) (Kk % cfg.d3.N + NG)
  have hG : ∀ d : Dim, d.WF → ∀ c i, act d i → glob d c i / d.N = c ∧ glob d c i % d.N + NG = i := by
    intro d hd c i hi
    have hp := hd.N_pos
    unfold act at hi
    have e : glob d c i = (i - NG) + d.N * c := by unfold glob; ring
    constructor
    · rw [e, Int.add_mul_ediv_left _ _ (by omega), Int.ediv_eq_zero_of_lt (by omega) (by omega)]; ring
    · rw [e, Int.add_mul_emod_self_left, Int.emod_eq_of_lt (by omega) (by omega)]; ring
  have hW : Represents cfg W G := by
    intro c1 c2 c3 i j k _ _ _ hi hj hk
    show _ = W _ _ _ _ _ _
    rw [(hG _ h1 c1 i hi).1, (hG _ h1 c1 i hi).2, (hG _ h2 c2 j hj).1, (hG _ h2 c2 j hj).2, (hG _ h3 c3 k hk).1,
      (hG _ h3 c3 k hk).2]
  rw [boundPrim_actual cfg W W' G h1 h2 h3 hW hrun c1 c2 c3 i j k hc1 hc2 hc3 (all_of_act hi) (all_of_act hj)
    (all_of_act hk), actual_inside cfg G _ _ _ (glob_inside _ h1 _ _ hc1 hi) (glob_inside _ h2 _ _ hc2 hj)
    (glob_inside _ h3 _ _ hc3 hk)]
  exact (hW c1 c2 c3 i j k hc1 hc2 hc3 hi hj hk).symm

/-- **C56 (halo exchange).** After the update two ranks that both hold a copy of the same zone of the extended global
grid hold the same value, and a copy of a zone inside the grid is the value of that zone of the global array: the
distributed array is the windowed global array. -/
theorem C56_halo (cfg : Cfg K) (W W' : World (Cell K)) (G : ℤ → ℤ → ℤ → Cell K)
    (h1 : cfg.d1.WF) (h2 : cfg.d2.WF) (h3 : cfg.d3.WF)
    (hW : Represents cfg W G) (hrun : boundPrim cfg W = some W')
    (c1 c2 c3 i j k : ℤ) (hc1 : 0 ≤ c1 ∧ c1 < cfg.d1.C) (hc2 : 0 ≤ c2 ∧ c2 < cfg.d2.C) (hc3 : 0 ≤ c3 ∧ c3 < cfg.d3.C)
    (hi : all cfg.d1 i) (hj : all cfg.d2 j) (hk : all cfg.d3 k) :
    (∀ c1' c2' c3' i' j' k', (0 ≤ c1' ∧ c1' < cfg.d1.C) → (0 ≤ c2' ∧ c2' < cfg.d2.C) → (0 ≤ c3' ∧ c3' < cfg.d3.C) →
      all cfg.d1 i' → all cfg.d2 j' → all cfg.d3 k' →
      glob cfg.d1 c1' i' = glob cfg.d1 c1 i → glob cfg.d2 c2' j' = glob cfg.d2 c2 j →
      glob cfg.d3 c3' k' = glob cfg.d3 c3 k → W' c1' c2' c3' i' j' k' = W' c1 c2 c3 i j k) ∧
    ((0 ≤ glob cfg.d1 c1 i ∧ glob cfg.d1 c1 i < cfg.d1.tot) → (0 ≤ glob cfg.d2 c2 j ∧ glob cfg.d2 c2 j < cfg.d2.tot) →
      (0 ≤ glob cfg.d3 c3 k ∧ glob cfg.d3 c3 k < cfg.d3.tot) →
      W' c1 c2 c3 i j k = G (glob cfg.d1 c1 i) (glob cfg.d2 c2 j) (glob cfg.d3 c3 k)) := by
  have key := boundPrim_actual cfg W W' G h1 h2 h3 hW hrun
  refine ⟨?_, ?_⟩
  · intro c1' c2' c3' i' j' k' a1 a2 a3 a4 a5 a6 e1 e2 e3
    rw [key c1' c2' c3' i' j' k' a1 a2 a3 a4 a5 a6, key c1 c2 c3 i j k hc1 hc2 hc3 hi hj hk, e1, e2, e3]
  · intro b1 b2 b3
    rw [key c1 c2 c3 i j k hc1 hc2 hc3 hi hj hk, actual_inside cfg G _ _ _ b1 b2 b3]

/-- Boundary choices for which the update is implemented, direction by direction; a direction thinner than the ghost
region accepts anything. -/
def Supported (cfg : Cfg K) : Prop :=
  (cfg.d1.N < NG ∨ cfg.d1.left ∈ [BC.outflow, .prob, .periodic] ∧ cfg.d1.right ∈ [BC.outflow, .prob, .periodic]) ∧
  (cfg.d2.N < NG ∨ cfg.d2.left ∈ [BC.outflow, .polar, .periodic] ∧ cfg.d2.right ∈ [BC.outflow, .polar, .periodic]) ∧
  (cfg.d3.N < NG ∨ cfg.d3.left ∈ [BC.outflow, .periodic] ∧ cfg.d3.right ∈ [BC.outflow, .periodic])

/-- **C18 (supported choices).** The update completes exactly for the supported boundary choices, whatever the data;
for all others the program stops. -/
theorem C18_supported (cfg : Cfg K) (W : World (Cell K)) : (boundPrim cfg W).isSome ↔ Supported cfg := by
  have e1 : (fillX1L cfg).isSome ↔ (cfg.d1.N < NG ∨ cfg.d1.left ∈ [BC.outflow, .prob, .periodic]) := by
    unfold fillX1L; by_cases h : cfg.d1.N < NG <;> cases hl : cfg.d1.left <;> simp [h]
  have e2 : (fillX1R cfg).isSome ↔ (cfg.d1.N < NG ∨ cfg.d1.right ∈ [BC.outflow, .prob, .periodic]) := by
    unfold fillX1R; by_cases h : cfg.d1.N < NG <;> cases hl : cfg.d1.right <;> simp [h]
  have e3 : (fillX2L (K := K) cfg.d2).isSome ↔ (cfg.d2.N < NG ∨ cfg.d2.left ∈ [BC.outflow, .polar, .periodic]) := by
    unfold fillX2L; by_cases h : cfg.d2.N < NG <;> cases hl : cfg.d2.left <;> simp [h]
  have e4 : (fillX2R (K := K) cfg.d2).isSome ↔ (cfg.d2.N < NG ∨ cfg.d2.right ∈ [BC.outflow, .polar, .periodic]) := by
    unfold fillX2R; by_cases h : cfg.d2.N < NG <;> cases hl : cfg.d2.right <;> simp [h]
  have e5 : (fillX3L (K := K) cfg.d3).isSome ↔ (cfg.d3.N < NG ∨ cfg.d3.left ∈ [BC.outflow, .periodic]) := by
    unfold fillX3L; by_cases h : cfg.d3.N < NG <;> cases hl : cfg.d3.left <;> simp [h]
  have e6 : (fillX3R (K := K) cfg.d3).isSome ↔ (cfg.d3.N < NG ∨ cfg.d3.right ∈ [BC.outflow, .periodic]) := by
    unfold fillX3R; by_cases h : cfg.d3.N < NG <;> cases hl : cfg.d3.right <;> simp [h]
  have : (boundPrim cfg W).isSome ↔ ((fillX1L cfg).isSome ∧ (fillX1R cfg).isSome ∧ (fillX2L (K := K) cfg.d2).isSome ∧
      (fillX2R (K := K) cfg.d2).isSome ∧ (fillX3L (K := K) cfg.d3).isSome ∧ (fillX3R (K := K) cfg.d3).isSome) := by
    simp only [Option.isSome_iff_exists, boundPrim, Option.bind_eq_bind, Option.bind_eq_some_iff, Option.some.injEq]
    constructor
    · rintro ⟨_, f1, h1, f2, h2, f3, h3, f4, h4, f5, h5, f6, h6, _⟩
      exact ⟨⟨f1, h1⟩, ⟨f2, h2⟩, ⟨f3, h3⟩, ⟨f4, h4⟩, ⟨f5, h5⟩, ⟨f6, h6⟩⟩
    · rintro ⟨⟨f1, h1⟩, ⟨f2, h2⟩, ⟨f3, h3⟩, ⟨f4, h4⟩, ⟨f5, h5⟩, ⟨f6, h6⟩⟩
      exact ⟨_, f1, h1, f2, h2, f3, h3, f4, h4, f5, h5, f6, h6, rfl⟩
  rw [this, e1, e2, e3, e4, e5, e6]
  unfold Supported
  rw [or_and_left, or_and_left, or_and_left]
  simp only [and_assoc]

/-! ## The upper azimuthal outflow boundary -/

/-- **C18 (violation).** With outflow on the upper azimuthal side every upper ghost zone receives the *first* active
zone of the last rank, not the last zone of the grid. -/
theorem C18_upper_azimuthal_outflow (cfg : Cfg K) (W W' : World (Cell K)) (G : ℤ → ℤ → ℤ → Cell K)
    (h1 : cfg.d1.WF) (h2 : cfg.d2.WF) (h3 : cfg.d3.WF) (hthick : NG ≤ cfg.d3.N) (hout : cfg.d3.right = .outflow)
    (hW : Represents cfg W G) (hrun : boundPrim cfg W = some W')
    (c1 c2 i j k : ℤ) (hc1 : 0 ≤ c1 ∧ c1 < cfg.d1.C) (hc2 : 0 ≤ c2 ∧ c2 < cfg.d2.C)
    (hi : act cfg.d1 i) (hj : act cfg.d2 j) (hk : cfg.d3.N + NG ≤ k ∧ k < cfg.d3.N + 2 * NG) :
    W' c1 c2 (cfg.d3.C - 1) i j k = W c1 c2 (cfg.d3.C - 1) i j NG := by
  have hNG : NG = 3 := rfl
  have hC := h3.C_pos
  have htot : (cfg.d3.C - 1) * cfg.d3.N = cfg.d3.tot - cfg.d3.N := by unfold Dim.tot; ring
  rw [boundPrim_actual cfg W W' G h1 h2 h3 hW hrun c1 c2 _ i j k hc1 hc2 ⟨by omega, by omega⟩ (all_of_act hi)
    (all_of_act hj) (by unfold all; omega), hW c1 c2 _ i j NG hc1 hc2 ⟨by omega, by omega⟩ hi hj (by unfold act; omega)]
  have hs : src3 cfg.d3 (glob cfg.d3 (cfg.d3.C - 1) k) = glob cfg.d3 (cfg.d3.C - 1) NG := by
    unfold src3
    rw [if_pos ⟨hthick, hout, by unfold glob; omega⟩]
    unfold glob; omega
  have hin := glob_inside _ h3 (cfg.d3.C - 1) NG ⟨by omega, by omega⟩ (by unfold act; omega)
  rw [← actual_inside cfg G _ _ _ (glob_inside _ h1 _ _ hc1 hi) (glob_inside _ h2 _ _ hc2 hj) hin]
  unfold actual
  rw [hs]
  have : src3 cfg.d3 (glob cfg.d3 (cfg.d3.C - 1) NG) = glob cfg.d3 (cfg.d3.C - 1) NG := by
    unfold src3 src; rw [if_neg (by omega), if_neg (by omega), if_neg (by omega)]
  rw [this]

/-- A 2×2×1-rank grid: radial outflow, poles, azimuthally outflow or periodic. -/
def demo (b : BC) : Cfg ℚ :=
  { d1 := ⟨4, 2, .outflow, .outflow⟩, d2 := ⟨5, 2, .polar, .polar⟩, d3 := ⟨4, 1, b, b⟩,
    gdet := fun I _ => 10 + I, probL := fun _ _ _ => ⟨fun _ => 0, 0⟩, probR := fun _ _ _ => ⟨fun _ => 0, 0⟩ }

/-- A grid on which every zone carries a different flag. -/
def demoG (I J Kk : ℤ) : Cell ℚ := ⟨fun q => I + 2 * J + q.val, 10000 * I + 100 * J + Kk⟩

def demoW (b : BC) : World (Cell ℚ) := fun c1 c2 c3 i j k =>
  demoG (glob (demo b).d1 c1 i) (glob (demo b).d2 c2 j) (glob (demo b).d3 c3 k)

theorem demo_wf (b : BC) : (demo b).d1.WF ∧ (demo b).d2.WF ∧ (demo b).d3.WF := by
  refine ⟨⟨by norm_num [demo], by norm_num [demo], by simp [demo], by norm_num [demo, NG]⟩,
    ⟨by norm_num [demo], by norm_num [demo], by simp [demo], by norm_num [demo, NG]⟩,
    ⟨by norm_num [demo], by norm_num [demo], by simp [demo], by norm_num [demo, NG]⟩⟩

/-- The hypotheses of `C18_ghosts_partial` hold for a run on four ranks with poles and a periodic azimuth; a corner
ghost zone is then computed by the theorem. -/
example : ∃ W', boundPrim (demo .periodic) (demoW .periodic) = some W' ∧
    (W' 0 0 0 1 2 0).pflag = (demoG 0 0 1).pflag ∧ (W' 0 0 0 1 2 0).prim 3 = -(demoG 0 0 1).prim 3 ∧
    (W' 0 0 0 1 2 0).prim 5 = (demoG 0 0 1).prim 5 * (10 / 8) := by
  have hs : (boundPrim (demo .periodic) (demoW .periodic)).isSome := by
    rw [C18_supported]; simp [Supported, demo]
  obtain ⟨W', hW'⟩ := Option.isSome_iff_exists.1 hs
  obtain ⟨w1, w2, w3⟩ := demo_wf .periodic
  have hrep : Represents (demo .periodic) (demoW .periodic) demoG := fun _ _ _ _ _ _ _ _ _ _ _ _ => rfl
  have := C18_ghosts_partial (demo .periodic) _ W' demoG w1 w2 w3 (by simp [demo]) hrep hW' 0 0 0 1 2 0
    (by norm_num [demo]) (by norm_num [demo]) (by norm_num [demo]) (by norm_num [all, demo, NG])
    (by norm_num [all, demo, NG]) (by norm_num [all, demo, NG])
  refine ⟨W', hW', ?_⟩
  rw [this]
  simp [expected, radial, src, BeyondPole, demo, glob, NG, Dim.tot, mirrored, carried, demoG]
  norm_num

/-- **C18 is false for upper azimuthal outflow**: a completed run in which an upper ghost zone does not hold its
nearest active zone. -/
theorem C18_upper_azimuthal_outflow_false : ∃ (cfg : Cfg ℚ) (W W' : World (Cell ℚ)) (G : ℤ → ℤ → ℤ → Cell ℚ),
    cfg.d1.WF ∧ cfg.d2.WF ∧ cfg.d3.WF ∧ Represents cfg W G ∧ boundPrim cfg W = some W' ∧
    ∃ i j k, all cfg.d1 i ∧ all cfg.d2 j ∧ all cfg.d3 k ∧
      W' 0 0 0 i j k ≠ expected cfg G (glob cfg.d1 0 i) (glob cfg.d2 0 j) (glob cfg.d3 0 k) := by
  have hs : (boundPrim (demo .outflow) (demoW .outflow)).isSome := by
    rw [C18_supported]; simp [Supported, demo]
  obtain ⟨W', hW'⟩ := Option.isSome_iff_exists.1 hs
  obtain ⟨w1, w2, w3⟩ := demo_wf .outflow
  have hrep : Represents (demo .outflow) (demoW .outflow) demoG := fun _ _ _ _ _ _ _ _ _ _ _ _ => rfl
  refine ⟨demo .outflow, demoW .outflow, W', demoG, w1, w2, w3, hrep, hW', 3, 3, 7, ?_, ?_, ?_, ?_⟩
  · norm_num [all, demo, NG]
  · norm_num [all, demo, NG]
  · norm_num [all, demo, NG]
  have h := C18_upper_azimuthal_outflow (demo .outflow) _ W' demoG w1 w2 w3 (by norm_num [demo, NG]) rfl hrep hW'
    0 0 3 3 7 (by norm_num [demo]) (by norm_num [demo]) (by norm_num [act, demo, NG])
    (by norm_num [act, demo, NG]) (by norm_num [demo, NG])
  have h' : W' 0 0 0 3 3 7 = demoW .outflow 0 0 0 3 3 NG := h
  rw [h']
  intro hc
  have := congrArg Cell.pflag hc
  simp [expected, radial, src, BeyondPole, demo, demoW, glob, NG, Dim.tot, demoG] at this

/-! ## Polar mirror -/

theorem mirrored_mirrored (v : Cell K) : mirrored (mirrored v) = v := by
  unfold mirrored
  congr 1
  funext q
  simp only
  split_ifs <;> ring

theorem mirrored_carried (g0 g : K) (v : Cell K) : mirrored (carried g0 g v) = carried g0 g (mirrored v) := by
  unfold mirrored carried
  congr 1
  funext q
  simp only
  split_ifs <;> ring

/-- **C20 (index map).** At a pole the ghost zones mirror distinct active zones, and the mirror map is its own
inverse: the mirror image of the image is the zone itself. -/
theorem C20_mirror_index (d : Dim) (hd : d.WF) (hN : NG ≤ d.N) :
    (d.left = .polar → (∀ J, -NG ≤ J → J < 0 → 0 ≤ src d J ∧ src d J < NG ∧ -1 - src d J = J) ∧
      ∀ J J', -NG ≤ J → J < 0 → -NG ≤ J' → J' < 0 → src d J = src d J' → J = J') ∧
    (d.right = .polar → (∀ J, d.tot ≤ J → J < d.tot + NG →
        d.tot - NG ≤ src d J ∧ src d J < d.tot ∧ 2 * d.tot - 1 - src d J = J) ∧
      ∀ J J', d.tot ≤ J → J < d.tot + NG → d.tot ≤ J' → J' < d.tot + NG → src d J = src d J' → J = J') := by
  have htot : 0 < d.tot := by
    unfold Dim.tot; exact mul_pos (by have := hd.N_pos; omega) (by have := hd.C_pos; omega)
  constructor
  · intro hl
    have e : ∀ J, J < 0 → src d J = -1 - J := by
      intro J h; unfold src; rw [if_pos h, if_neg (by omega), hl]
    exact ⟨fun J h h' => by rw [e J h']; omega, fun J J' _ h _ h' he => by rw [e J h, e J' h'] at he; omega⟩
  · intro hr
    have e : ∀ J, d.tot ≤ J → src d J = 2 * d.tot - 1 - J := by
      intro J h; unfold src; rw [if_neg (by omega), if_pos h, if_neg (by omega), hr]
    exact ⟨fun J h h' => by rw [e J h]; omega, fun J J' h _ h' _ he => by rw [e J h, e J' h'] at he; omega⟩

/-- **C20 (axis symmetry).** The extended grid is mirror symmetric about each pole: the zone at the mirrored index
holds the same data with polar velocity and polar field reversed, for ghosts and active zones alike. -/
theorem C20_axis_symmetry (cfg : Cfg K) (h2 : cfg.d2.WF) (hN : NG ≤ cfg.d2.N) (G : ℤ → ℤ → ℤ → Cell K) (I Kk : ℤ) :
    (cfg.d2.left = .polar → ∀ J, -NG ≤ J → J < NG →
      expected cfg G I (-1 - J) Kk = mirrored (expected cfg G I J Kk)) ∧
    (cfg.d2.right = .polar → ∀ J, cfg.d2.tot - NG ≤ J → J < cfg.d2.tot + NG →
      expected cfg G I (2 * cfg.d2.tot - 1 - J) Kk = mirrored (expected cfg G I J Kk)) := by
  have hNG : NG = 3 := rfl
  have htot : cfg.d2.N ≤ cfg.d2.tot := by
    unfold Dim.tot; nlinarith [h2.C_pos, h2.N_pos]
  -- values on both sides
  have inside : ∀ J, 0 ≤ J → J < cfg.d2.tot → src cfg.d2 J = J ∧ ¬ BeyondPole cfg.d2 J := by
    intro J h h'
    refine ⟨by unfold src; rw [if_neg (by omega), if_neg (by omega)], ?_⟩
    rintro ⟨-, h3 | h3⟩ <;> omega
  constructor
  · intro hl
    have outside : ∀ J, J < 0 → src cfg.d2 J = -1 - J ∧ BeyondPole cfg.d2 J := by
      intro J h
      exact ⟨by unfold src; rw [if_pos h, if_neg (by omega), hl], hN, Or.inl ⟨h, hl⟩⟩
    intro J hlo hhi
    unfold expected
    by_cases hJ : J < 0
    · rw [(inside (-1 - J) (by omega) (by omega)).1, if_neg (inside (-1 - J) (by omega) (by omega)).2, (outside J hJ).1,
        if_pos (outside J hJ).2, mirrored_mirrored]
    · rw [(inside J (by omega) (by omega)).1, if_neg (inside J (by omega) (by omega)).2,
        (outside (-1 - J) (by omega)).1, if_pos (outside (-1 - J) (by omega)).2]
      congr 2; omega
  · intro hr
    have outside : ∀ J, cfg.d2.tot ≤ J → src cfg.d2 J = 2 * cfg.d2.tot - 1 - J ∧ BeyondPole cfg.d2 J := by
      intro J h
      exact ⟨by unfold src; rw [if_neg (by omega), if_pos h, if_neg (by omega), hr], hN, Or.inr ⟨h, hr⟩⟩
    intro J hlo hhi
    unfold expected
    by_cases hJ : cfg.d2.tot ≤ J
    · rw [(inside (2 * cfg.d2.tot - 1 - J) (by omega) (by omega)).1,
        if_neg (inside (2 * cfg.d2.tot - 1 - J) (by omega) (by omega)).2, (outside J hJ).1,
        if_pos (outside J hJ).2, mirrored_mirrored]
    · rw [(inside J (by omega) (by omega)).1, if_neg (inside J (by omega) (by omega)).2,
        (outside (2 * cfg.d2.tot - 1 - J) (by omega)).1, if_pos (outside (2 * cfg.d2.tot - 1 - J) (by omega)).2]
      congr 2; omega

/-- **C20 (equatorial symmetry).** Data symmetric under reflection in the equator stay symmetric when the grid is
extended over both poles. -/
theorem C20_equatorial_symmetry (cfg : Cfg K) (h2 : cfg.d2.WF) (hN : NG ≤ cfg.d2.N) (G : ℤ → ℤ → ℤ → Cell K)
    (hl : cfg.d2.left = .polar) (hr : cfg.d2.right = .polar)
    (hG : ∀ I J Kk, 0 ≤ J → J < cfg.d2.tot → G I (cfg.d2.tot - 1 - J) Kk = mirrored (G I J Kk))
    (hgd : ∀ I J, 0 ≤ J → J < cfg.d2.tot → cfg.gdet I (cfg.d2.tot - 1 - J) = cfg.gdet I J)
    (hnp : cfg.d1.left ≠ .prob ∧ cfg.d1.right ≠ .prob)
    (I J Kk : ℤ) (hJ : -NG ≤ J) (hJ' : J < cfg.d2.tot + NG) :
    expected cfg G I (cfg.d2.tot - 1 - J) Kk = mirrored (expected cfg G I J Kk) := by
  have hNG : NG = 3 := rfl
  have htot : cfg.d2.N ≤ cfg.d2.tot := by
    unfold Dim.tot; nlinarith [h2.C_pos, h2.N_pos]
  have hrad : ∀ J, 0 ≤ J → J < cfg.d2.tot → radial cfg G I (cfg.d2.tot - 1 - J) (src cfg.d3 Kk) =
      mirrored (radial cfg G I J (src cfg.d3 Kk)) := by
    intro J h h'
    unfold radial
    simp only [hG _ J _ h h', hgd _ J h h']
    split_ifs
    · rfl
    · cases h3 : cfg.d1.left <;> simp only [h3, ne_eq, not_true_eq_false, false_and] at hnp ⊢ <;>
        first | (rw [mirrored_carried]) | rfl 
    · cases h3 : cfg.d1.right <;> simp only [h3, ne_eq, not_true_eq_false, and_false] at hnp ⊢ <;>
        first | (rw [mirrored_carried]) | rfl
    · rfl
  have inside : ∀ J, 0 ≤ J → J < cfg.d2.tot → src cfg.d2 J = J ∧ ¬ BeyondPole cfg.d2 J := by
    intro J h h'
    refine ⟨by unfold src; rw [if_neg (by omega), if_neg (by omega)], ?_⟩
    rintro ⟨-, h3 | h3⟩ <;> omega
  have below : ∀ J, J < 0 → src cfg.d2 J = -1 - J ∧ BeyondPole cfg.d2 J := by
    intro J h
    exact ⟨by unfold src; rw [if_pos h, if_neg (by omega), hl], hN, Or.inl ⟨h, hl⟩⟩
  have above : ∀ J, cfg.d2.tot ≤ J → src cfg.d2 J = 2 * cfg.d2.tot - 1 - J ∧ BeyondPole cfg.d2 J := by
    intro J h
    exact ⟨by unfold src; rw [if_neg (by omega), if_pos h, if_neg (by omega), hr], hN, Or.inr ⟨h, hr⟩⟩
  unfold expected
  by_cases h0 : J < 0
  · rw [(below J h0).1, if_pos (below J h0).2, (above (cfg.d2.tot - 1 - J) (by omega)).1,
      if_pos (above (cfg.d2.tot - 1 - J) (by omega)).2, ← hrad (-1 - J) (by omega) (by omega)]
    congr 2; omega
  · by_cases h3 : cfg.d2.tot ≤ J
    · rw [(above J h3).1, if_pos (above J h3).2, (below (cfg.d2.tot - 1 - J) (by omega)).1,
        if_pos (below (cfg.d2.tot - 1 - J) (by omega)).2, ← hrad (2 * cfg.d2.tot - 1 - J) (by omega) (by omega)]
      congr 2; omega
    · rw [(inside J (by omega) (by omega)).1, if_neg (inside J (by omega) (by omega)).2,
        (inside (cfg.d2.tot - 1 - J) (by omega) (by omega)).1, if_neg (inside (cfg.d2.tot - 1 - J) (by omega) (by omega)).2,
        hrad J (by omega) (by omega)]

/-- **C20 (the code).** After a boundary update, any two zones on any ranks whose global polar indices are mirror images
about a pole hold the same data with polar velocity and polar field reversed. -/
theorem C20_code (cfg : Cfg K) (W W' : World (Cell K)) (G : ℤ → ℤ → ℤ → Cell K)
    (h1 : cfg.d1.WF) (h2 : cfg.d2.WF) (h3 : cfg.d3.WF) (hN : NG ≤ cfg.d2.N)
    (hout : cfg.d3.right = .outflow → cfg.d3.N < NG) (hW : Represents cfg W G) (hrun : boundPrim cfg W = some W')
    (c1 c2 c2' c3 i j j' k : ℤ) (hc1 : 0 ≤ c1 ∧ c1 < cfg.d1.C) (hc2 : 0 ≤ c2 ∧ c2 < cfg.d2.C)
    (hc2' : 0 ≤ c2' ∧ c2' < cfg.d2.C) (hc3 : 0 ≤ c3 ∧ c3 < cfg.d3.C)
    (hi : all cfg.d1 i) (hj : all cfg.d2 j) (hj' : all cfg.d2 j') (hk : all cfg.d3 k)
    (hm : (cfg.d2.left = .polar ∧ -NG ≤ glob cfg.d2 c2 j ∧ glob cfg.d2 c2 j < NG ∧
        glob cfg.d2 c2' j' = -1 - glob cfg.d2 c2 j) ∨
      (cfg.d2.right = .polar ∧ cfg.d2.tot - NG ≤ glob cfg.d2 c2 j ∧ glob cfg.d2 c2 j < cfg.d2.tot + NG ∧
        glob cfg.d2 c2' j' = 2 * cfg.d2.tot - 1 - glob cfg.d2 c2 j)) :
    W' c1 c2' c3 i j' k = mirrored (W' c1 c2 c3 i j k) := by
  rw [C18_ghosts_partial cfg W W' G h1 h2 h3 hout hW hrun c1 c2 c3 i j k hc1 hc2 hc3 hi hj hk,
    C18_ghosts_partial cfg W W' G h1 h2 h3 hout hW hrun c1 c2' c3 i j' k hc1 hc2' hc3 hi hj' hk]
  have := C20_axis_symmetry cfg h2 hN G (glob cfg.d1 c1 i) (glob cfg.d3 c3 k)
  rcases hm with ⟨hp, a, b, e⟩ | ⟨hp, a, b, e⟩
  · rw [e]; exact this.1 hp _ a b
  · rw [e]; exact this.2 hp _ a b

/-- The demonstration grid has poles on both sides and ten zones in angle. -/
example : (demo .periodic).d2.WF ∧ NG ≤ (demo .periodic).d2.N ∧ (demo .periodic).d2.left = .polar ∧
    (demo .periodic).d2.right = .polar := ⟨(demo_wf _).2.1, by norm_num [demo, NG], rfl, rfl⟩

end Nubhlight.Bounds
