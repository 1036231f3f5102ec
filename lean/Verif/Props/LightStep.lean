import Verif.Common
import Verif.Model.LightStep
import Verif.Model.TimeLoop
import Verif.Props.RadZone
import Verif.Props.Vchar
import Verif.Props.Push
import Mathlib.Algebra.Order.Floor.Ring
import Mathlib.Tactic.Linarith
import Mathlib.Tactic.Positivity
import Mathlib.Tactic.FieldSimp

set_option autoImplicit false

/-! # C214: light crosses at most a fraction of a zone in a step -/

set_option linter.unusedSectionVars false

namespace Nubhlight.LightStep

open Nubhlight.Fluid

/-- The vector dual to the coordinate `x^j`. -/
def grad (G : Geom) (j : Fin 4) : V4 := fun i => G.gcon i j

theorem ip_grad (G : Geom) (h : G.Valid) (j : Fin 4) (x : V4) : ip G (grad G j) x = x j := by
  rw [ip_comm h]
  have : ip G x (grad G j) = ∑ i, x i * ∑ m, G.gcov i m * G.gcon m j := by
    unfold ip grad
    refine Finset.sum_congr rfl fun i _ => ?_
    rw [Finset.mul_sum]
    exact Finset.sum_congr rfl fun m _ => by ring
  rw [this]
  simp only [h.inv]
  simp

/-- The discriminant of core/coord.c:496-498. -/
noncomputable def disc (G : Geom) (j : Fin 4) : ℝ := G.gcon 0 j ^ 2 - G.gcon j j * G.gcon 0 0

theorem tang_grad (G : Geom) (h : G.Valid) (j : Fin 4) :
    ip G (RadZone.tang G (grad G j)) (RadZone.tang G (grad G j)) = G.alpha ^ 2 * disc G j := by
  have e := RadZone.ip_split G h (grad G j) (grad G j)
  rw [ip_grad G h] at e
  have a := h.alpha_sq
  have s := h.symCon 0 j
  simp only [grad] at e
  unfold disc
  linear_combination -e + G.gcon j j * a

theorem disc_nonneg (G : Geom) (h : G.Valid) (hs : RadZone.Spacelike G) (j : Fin 4) : 0 ≤ disc G j := by
  have := hs _ (RadZone.tang_zero G h (grad G j))
  rw [tang_grad G h] at this
  have ha := h.alpha_pos
  have : 0 < G.alpha ^ 2 := by positivity
  nlinarith

theorem max_abs (a s : ℝ) (hs : 0 ≤ s) : max |a + s| |a - s| = |a| + s := by
  rcases le_total 0 a with h | h
  · rw [abs_of_nonneg h, abs_of_nonneg (by linarith : 0 ≤ a + s)]
    exact max_eq_left (abs_le.mpr ⟨by linarith, by linarith⟩)
  · rw [abs_of_nonpos h, abs_of_nonpos (by linarith : a - s ≤ 0)]
    rw [max_eq_right (abs_le.mpr ⟨by linarith, by linarith⟩)]
    ring

theorem speed_eq (G : Geom) (h : G.Valid) (hs : RadZone.Spacelike G) (j : Fin 4) :
    speed G j = G.alpha ^ 2 * (|G.gcon 0 j| + Real.sqrt (disc G j)) := by
  have hd := disc_nonneg G h hs j
  have hd' := hd
  unfold disc at hd'
  have ht := h.time
  have ha : G.alpha ^ 2 = 1 / -(G.gcon 0 0) := by
    rw [eq_div_iff (by linarith)]
    linarith [h.alpha_sq]
  rw [speed, if_pos hd']
  change max |(-G.gcon 0 j + Real.sqrt (disc G j)) / G.gcon 0 0| |(-G.gcon 0 j - Real.sqrt (disc G j)) / G.gcon 0 0| = _
  rw [abs_div, abs_div, abs_of_neg ht, ha, max_div_div_right (by linarith), max_abs _ _ (Real.sqrt_nonneg _), abs_neg]
  ring

/-- **C214 (speed).** In every geometry the speed the code takes in a direction bounds the coordinate velocity of everything that is not faster than light. -/
theorem C214_speed (G : Geom) (h : G.Valid) (hs : RadZone.Spacelike G) (k : V4) (hk : ip G k k ≤ 0) (h0 : 0 < k 0) (j : Fin 4) :
    |k j / k 0| ≤ speed G j := by
  have e := RadZone.ip_split G h (grad G j) k
  have ek := RadZone.ip_split G h k k
  have c := RadZone.tang_cs G h hs (grad G j) k
  rw [tang_grad G h] at c
  rw [ip_grad G h] at e
  have g0 : grad G j 0 = G.gcon 0 j := rfl
  rw [g0] at e
  have hd := disc_nonneg G h hs j
  have ha := h.alpha_pos
  rw [speed_eq G h hs, abs_div, abs_of_pos h0, div_le_iff₀ h0, e]
  have hkk : ip G (RadZone.tang G k) (RadZone.tang G k) ≤ (G.alpha * k 0) ^ 2 := by nlinarith
  generalize ip G (RadZone.tang G (grad G j)) (RadZone.tang G k) = T at *
  have hT : |T| ≤ G.alpha ^ 2 * Real.sqrt (disc G j) * k 0 := by
    apply abs_le_of_sq_le_sq
    · have hsq := Real.sq_sqrt hd
      calc T ^ 2 ≤ G.alpha ^ 2 * disc G j * ip G (RadZone.tang G k) (RadZone.tang G k) := c
        _ ≤ G.alpha ^ 2 * disc G j * (G.alpha * k 0) ^ 2 := mul_le_mul_of_nonneg_left hkk (by positivity)
        _ = (G.alpha ^ 2 * Real.sqrt (disc G j) * k 0) ^ 2 := by
            linear_combination (-(G.alpha ^ 4 * k 0 ^ 2)) * hsq
    · positivity
  have h2 : |G.alpha * G.gcon 0 j * (G.alpha * k 0)| = G.alpha ^ 2 * |G.gcon 0 j| * k 0 := by
    rw [abs_mul, abs_mul, abs_mul, abs_of_pos ha, abs_of_pos h0]
    ring
  have h3 := abs_sub T (G.alpha * G.gcon 0 j * (G.alpha * k 0))
  rw [h2] at h3
  nlinarith

/-- **C214 (no slower).** The bound is reached: some ray of light moves in the direction with exactly this speed. -/
theorem C214_reached (G : Geom) (h : G.Valid) (hs : RadZone.Spacelike G) (j : Fin 4) (hd : 0 < disc G j) :
    ∃ k : V4, ip G k k = 0 ∧ 0 < k 0 ∧ |k j / k 0| = speed G j := by
  have ha := h.alpha_pos
  have hq : 0 < Real.sqrt (disc G j) := Real.sqrt_pos.mpr hd
  have hsq := Real.sq_sqrt hd.le
  obtain ⟨σ, h1, h2⟩ : ∃ σ : ℝ, σ ^ 2 = 1 ∧ |(-G.gcon 0 j) + σ * Real.sqrt (disc G j)| = |G.gcon 0 j| + Real.sqrt (disc G j) := by
    rcases le_total 0 (G.gcon 0 j) with c | c
    · refine ⟨-1, by norm_num, ?_⟩
      rw [abs_of_nonneg c, abs_of_nonpos (by linarith)]
      ring
    · refine ⟨1, by norm_num, ?_⟩
      rw [abs_of_nonpos c, abs_of_nonneg (by linarith)]
      ring
  set b : ℝ := σ / (G.alpha * Real.sqrt (disc G j)) with hb
  have hb2 : b ^ 2 * (G.alpha ^ 2 * disc G j) = 1 := by
    rw [hb, div_pow, h1, mul_pow, hsq]
    field_simp
  refine ⟨fun i => 1 * normal G i + b * RadZone.tang G (grad G j) i, ?_, ?_, ?_⟩
  · rw [ip_lin, ip_lin_right, ip_lin_right, ip_normal_normal h, ip_comm h (normal G), ip_normal h, RadZone.tang_zero G h, tang_grad G h]
    linear_combination hb2
  · show 0 < 1 * normal G 0 + b * RadZone.tang G (grad G j) 0
    rw [RadZone.tang_zero G h, normal_zero h]
    have : 0 < 1 / G.alpha := by positivity
    linarith
  · show |(1 * normal G j + b * RadZone.tang G (grad G j) j) / (1 * normal G 0 + b * RadZone.tang G (grad G j) 0)| = _
    have ht : RadZone.tang G (grad G j) j = G.alpha ^ 2 * disc G j := by
      have a := h.alpha_sq
      show G.gcon j j - G.alpha * G.gcon 0 j * (-G.alpha * G.gcon 0 j) = _
      unfold disc
      linear_combination G.gcon j j * a
    rw [RadZone.tang_zero G h, normal_zero h, ht, speed_eq G h hs, ← h2]
    have e : (1 * normal G j + b * (G.alpha ^ 2 * disc G j)) / (1 * (1 / G.alpha) + b * 0) =
        G.alpha ^ 2 * (-G.gcon 0 j + σ * Real.sqrt (disc G j)) := by
      have : b * (G.alpha ^ 2 * disc G j) = G.alpha * σ * Real.sqrt (disc G j) := by
        rw [hb]
        field_simp
        rw [hsq]
      rw [this]
      simp only [normal]
      field_simp
      ring
    rw [e, abs_mul, abs_of_pos (by positivity : 0 < G.alpha ^ 2)]

/-- **C214 (waves).** Both characteristic speeds of the fluid the code computes are within the speed it takes for light. -/
theorem C214_waves (G : Geom) (h : G.Valid) (hs : RadZone.Spacelike G) (u : V4) (h0 : 0 < u 0) (hsp : Fluid.Spacelike G u) (j : Fin 4) (c2 : ℝ)
    (hc0 : 0 < c2) (hc1 : c2 ≤ 1) : |(vcharOf c2 u G j).1| ≤ speed G j ∧ |(vcharOf c2 u G j).2| ≤ speed G j := by
  have key : ∀ v, (v = (vcharOf c2 u G j).1 ∨ v = (vcharOf c2 u G j).2) → |v| ≤ speed G j := by
    intro v hv
    have h1 := C75_subluminal G h u h0 hsp j c2 hc0 hc1 v hv
    have e2 : ipc G (front j v) (front j v) = G.gcon j j - 2 * v * G.gcon 0 j + v ^ 2 * G.gcon 0 0 := by
      have : ∀ x y : V4, ipc G (fun i => x i - v * y i) (fun i => x i - v * y i) = ipc G x x - v * (ipc G x y + ipc G y x)
          + v ^ 2 * ipc G y y := by
        intro x y; simp only [ipc, Fin.sum_univ_four]; ring
      rw [show front j v = fun i => dX j i - v * dX 0 i from rfl, this]
      simp only [ipc_dX, h.symCon j 0]; ring
    rw [e2] at h1
    have hd := disc_nonneg G h hs j
    have hsq := Real.sq_sqrt hd
    have ha := h.alpha_sq
    have hap := h.alpha_pos
    rw [speed_eq G h hs]
    -- (v + α² g0j)² ≤ α⁴ disc
    have h2 : |v + G.alpha ^ 2 * G.gcon 0 j| ≤ G.alpha ^ 2 * Real.sqrt (disc G j) := by
      apply abs_le_of_sq_le_sq
      · rw [mul_pow, hsq]
        have h3 : 0 ≤ G.alpha ^ 2 * (G.gcon j j - 2 * v * G.gcon 0 j + v ^ 2 * G.gcon 0 0) := by positivity
        have h4 : (G.alpha ^ 2) ^ 2 * disc G j - (v + G.alpha ^ 2 * G.gcon 0 j) ^ 2 =
            G.alpha ^ 2 * (G.gcon j j - 2 * v * G.gcon 0 j + v ^ 2 * G.gcon 0 0) := by
          unfold disc
          linear_combination (-(G.alpha ^ 2) * G.gcon j j - v ^ 2) * ha
        linarith
      · positivity
    have h5 := abs_sub_abs_le_abs_sub v (-(G.alpha ^ 2 * G.gcon 0 j))
    rw [sub_neg_eq_add, abs_neg, abs_mul, abs_of_pos (by positivity : 0 < G.alpha ^ 2)] at h5
    nlinarith
  exact ⟨key _ (Or.inl rfl), key _ (Or.inr rfl)⟩

theorem speed_nonneg (G : Geom) (mu : Fin 4) : 0 ≤ speed G mu := by
  unfold speed
  dsimp only
  split_ifs
  · exact le_trans (abs_nonneg _) (le_max_left _ _)
  · unfold SMALL
    positivity

theorem lower1_spec (dx : V4) (G : Geom) (acc : ℝ) (mu : Fin 4) (hx : 0 < dx mu) :
    lower1 dx G acc mu ≤ acc ∧ lower1 dx G acc mu * speed G mu ≤ dx mu ∧
      (lower1 dx G acc mu = acc ∨ (0 < speed G mu ∧ lower1 dx G acc mu = dx mu / speed G mu)) := by
  have hn := speed_nonneg G mu
  unfold lower1
  split_ifs with h1 h2
  · exact ⟨le_rfl, by rw [h1]; linarith, Or.inl rfl⟩
  · exact ⟨h2.le, by rw [div_mul_cancel₀ _ h1], Or.inr ⟨lt_of_le_of_ne hn (Ne.symm h1), rfl⟩⟩
  · refine ⟨le_rfl, ?_, Or.inl rfl⟩
    rw [not_lt, le_div_iff₀ (lt_of_le_of_ne hn (Ne.symm h1))] at h2
    exact h2

/-- **C214 (crossing time).** In the crossing time of a zone nothing crosses it in any direction at the speed of light of the zone, and unless it is the
largest number allowed, light crosses the zone in it in one direction. -/
theorem C214_crossing (dx : V4) (G : Geom) (hx : ∀ mu, 0 < dx mu) :
    (∀ mu : Fin 3, dtLight dx G * speed G mu.succ ≤ dx mu.succ) ∧ dtLight dx G ≤ 10 ^ 30 ∧ 0 < dtLight dx G ∧
      (dtLight dx G = 10 ^ 30 ∨ ∃ mu : Fin 3, dtLight dx G * speed G mu.succ = dx mu.succ) := by
  obtain ⟨a1, b1, c1⟩ := lower1_spec dx G (10 ^ 30) 1 (hx 1)
  obtain ⟨a2, b2, c2⟩ := lower1_spec dx G (lower1 dx G (10 ^ 30) 1) 2 (hx 2)
  obtain ⟨a3, b3, c3⟩ := lower1_spec dx G (lower1 dx G (lower1 dx G (10 ^ 30) 1) 2) 3 (hx 3)
  have n1 := speed_nonneg G 1
  have n2 := speed_nonneg G 2
  have n3 := speed_nonneg G 3
  change dtLight dx G ≤ _ at a3
  change dtLight dx G * _ ≤ _ at b3
  change dtLight dx G = _ ∨ (_ ∧ dtLight dx G = _) at c3
  have m1 : dtLight dx G * speed G 1 ≤ dx 1 := le_trans (mul_le_mul_of_nonneg_right (a3.trans a2) n1) b1
  have m2 : dtLight dx G * speed G 2 ≤ dx 2 := le_trans (mul_le_mul_of_nonneg_right a3 n2) b2
  have hcase : dtLight dx G = 10 ^ 30 ∨ ∃ mu : Fin 3, 0 < speed G mu.succ ∧ dtLight dx G = dx mu.succ / speed G mu.succ := by
    rcases c3 with c3 | c3
    · rw [c3]
      rcases c2 with c2 | c2
      · rw [c2]
        rcases c1 with c1 | c1
        · exact Or.inl c1
        · exact Or.inr ⟨0, c1⟩
      · exact Or.inr ⟨1, c2⟩
    · exact Or.inr ⟨2, c3⟩
  refine ⟨?_, (a3.trans a2).trans a1, ?_, ?_⟩
  · intro mu
    fin_cases mu
    · exact m1
    · exact m2
    · exact b3
  · rcases hcase with e | ⟨mu, hp, e⟩
    · rw [e]; positivity
    · rw [e]; exact div_pos (hx _) hp
  · rcases hcase with e | ⟨mu, hp, e⟩
    · exact Or.inl e
    · exact Or.inr ⟨mu, by rw [e, div_mul_cancel₀ _ hp.ne']⟩

theorem lowerMin_le (dx : V4) (acc : ℝ) (G : Geom) : lowerMin dx acc G ≤ acc := by
  unfold lowerMin
  split_ifs with h1 h2
  · exact le_rfl
  · exact h2.le
  · exact le_rfl

theorem rate_nonneg (dx : V4) (G : Geom) (hx : ∀ mu, 0 < dx mu) : 0 ≤ rate dx G := by
  have h1 := div_nonneg (speed_nonneg G 1) (hx 1).le
  have h2 := div_nonneg (speed_nonneg G 2) (hx 2).le
  have h3 := div_nonneg (speed_nonneg G 3) (hx 3).le
  unfold rate
  linarith

theorem lowerMin_rate (dx : V4) (acc : ℝ) (G : Geom) (hx : ∀ mu, 0 < dx mu) : lowerMin dx acc G * rate dx G ≤ 1 := by
  have hn := rate_nonneg dx G hx
  unfold lowerMin
  split_ifs with h1 h2
  · rw [h1]; norm_num
  · rw [div_mul_cancel₀ _ h1]
  · rw [not_lt, le_div_iff₀ (lt_of_le_of_ne hn (Ne.symm h1))] at h2
    exact h2

theorem fold_le (dx : V4) (l : List Geom) (acc : ℝ) : l.foldl (lowerMin dx) acc ≤ acc := by
  induction l generalizing acc with
  | nil => exact le_rfl
  | cons G l ih => exact (ih _).trans (lowerMin_le dx acc G)

theorem fold_rate (dx : V4) (l : List Geom) (acc : ℝ) (hx : ∀ mu, 0 < dx mu) (G : Geom) (hG : G ∈ l) :
    l.foldl (lowerMin dx) acc * rate dx G ≤ 1 := by
  induction l generalizing acc with
  | nil => simp at hG
  | cons H l ih =>
    rcases List.mem_cons.mp hG with rfl | hG
    · exact le_trans (mul_le_mul_of_nonneg_right (fold_le dx l _) (rate_nonneg dx _ hx)) (lowerMin_rate dx acc _ hx)
    · exact ih _ hG

theorem foldl_min_le (l : List ℝ) (a : ℝ) : l.foldl min a ≤ a ∧ ∀ x ∈ l, l.foldl min a ≤ x := by
  induction l generalizing a with
  | nil => simp
  | cons y l ih =>
    obtain ⟨h1, h2⟩ := ih (min a y)
    refine ⟨h1.trans (min_le_left _ _), fun x hx => ?_⟩
    rcases List.mem_cons.mp hx with rfl | hx
    · exact h1.trans (min_le_right _ _)
    · exact h2 x hx

/-- **C214 (shortest).** In the shortest crossing time over all zones of all ranks, light of any zone crosses the zone at most once, the fractions of all
directions added up; and it is not longer than the crossing time of any zone. -/
theorem C214_shortest (dx : V4) (first : List Geom) (others : List (List Geom)) (hx : ∀ mu, 0 < dx mu) (G : Geom)
    (hG : G ∈ first ∨ ∃ z ∈ others, G ∈ z) :
    dtLightMin dx first others * rate dx G ≤ 1 ∧ dtLightMin dx first others ≤ dtLight dx G := by
  obtain ⟨h1, h2⟩ := foldl_min_le (others.map fun z => z.foldl (lowerMin dx) (1 / SMALL)) (first.foldl (lowerMin dx) (1 / SMALL))
  change dtLightMin dx first others ≤ _ at h1
  change ∀ x ∈ _, dtLightMin dx first others ≤ x at h2
  have hr := rate_nonneg dx G hx
  have hrate : dtLightMin dx first others * rate dx G ≤ 1 := by
    rcases hG with hG | ⟨z, hz, hG⟩
    · exact le_trans (mul_le_mul_of_nonneg_right h1 hr) (fold_rate dx first _ hx G hG)
    · exact le_trans (mul_le_mul_of_nonneg_right (h2 _ (List.mem_map.mpr ⟨z, hz, rfl⟩)) hr) (fold_rate dx z _ hx G hG)
  refine ⟨hrate, ?_⟩
  rcases (C214_crossing dx G hx).2.2.2 with e | ⟨mu, e⟩
  · rw [e]
    refine h1.trans ((fold_le dx first _).trans ?_)
    unfold SMALL
    norm_num
  · have hp := (C214_crossing dx G hx).2.2.1
    have hs : 0 < speed G mu.succ := by
      rcases (speed_nonneg G mu.succ).eq_or_lt with h0 | h0
      · rw [← h0, mul_zero] at e
        exact absurd e (hx _).ne
      · exact h0
    have hle : speed G mu.succ / dx mu.succ ≤ rate dx G := by
      have q1 := div_nonneg (speed_nonneg G 1) (hx 1).le
      have q2 := div_nonneg (speed_nonneg G 2) (hx 2).le
      have q3 := div_nonneg (speed_nonneg G 3) (hx 3).le
      unfold rate
      fin_cases mu
      · show speed G 1 / dx 1 ≤ _
        linarith
      · show speed G 2 / dx 2 ≤ _
        linarith
      · show speed G 3 / dx 3 ≤ _
        linarith
    by_contra hc
    push Not at hc
    have hm : dtLightMin dx first others * (speed G mu.succ / dx mu.succ) ≤ 1 :=
      le_trans (mul_le_mul_of_nonneg_left hle (hp.trans hc).le) hrate
    rw [← mul_div_assoc, div_le_one (hx _), ← e] at hm
    exact absurd (le_of_mul_le_mul_right hm hs) (not_le.mpr hc)

/-- **C214 (step).** In a run with radiation that starts with a step of at most `L` and in which no rank proposes more than `L`, no step is longer than `L`,
whatever the proposals are, if `L` is at least 5e-20. -/
theorem C214_step (cfg : TimeLoop.Cfg ℝ) (L : ℝ) (hL : 5 / 10 ^ 20 ≤ L) (s : TimeLoop.St ℝ) (hs : s.dt ≤ L) (ps : List (TimeLoop.Proposal ℝ))
    (hp : ∀ p ∈ ps, p.1 ≤ L) : (ps.foldl (TimeLoop.stepTime cfg) s).dt ≤ L := by
  induction ps generalizing s with
  | nil => exact hs
  | cons p ps ih =>
    refine ih _ ?_ fun q hq => hp q (List.mem_cons_of_mem _ hq)
    have h1 := hp p (by simp)
    have hm : TimeLoop.minDt s.dt p ≤ L := by
      refine (foldl_min_le _ _).1.trans ?_
      unfold TimeLoop.capDt
      split_ifs with h
      · linarith
      · exact h1
    have hr : TimeLoop.rescueDt cfg.radiation s.dt (TimeLoop.minDt s.dt p) ≤ L := by
      unfold TimeLoop.rescueDt
      split_ifs
      · unfold TimeLoop.small TimeLoop.safe
        norm_num at hL ⊢
        linarith
      · exact hm
    show TimeLoop.clipDt cfg.tf (s.t + s.dt) _ ≤ L
    unfold TimeLoop.clipDt
    split_ifs with h
    · linarith
    · exact hr

/-- **C214 (all together).** So in every step of such a run, started as the code does with the Courant number times the shortest crossing time, light crosses
at most the Courant number of any zone, all directions together, and a packet is pushed by exactly the Courant number times the crossing time of its zone. -/
theorem C214_run (cfg : TimeLoop.Cfg ℝ) (dx : V4) (first : List Geom) (others : List (List Geom)) (hx : ∀ mu, 0 < dx mu) (cour : ℝ)
    (hc : 0 < cour) (hL : 5 / 10 ^ 20 ≤ cour * dtLightMin dx first others) (s : TimeLoop.St ℝ) (hs : s.dt = cour * dtLightMin dx first others)
    (cool : List (ℝ × List ℝ)) (G : Geom) (hG : G ∈ first ∨ ∃ z ∈ others, G ∈ z) :
    let dt := ((cool.map fun c => ((min (cour * dtLightMin dx first others) c.1,
      c.2.map (min (cour * dtLightMin dx first others))) : TimeLoop.Proposal ℝ)).foldl (TimeLoop.stepTime cfg) s).dt
    dt * speed G 1 / dx 1 + dt * speed G 2 / dx 2 + dt * speed G 3 / dx 3 ≤ cour ∧
      Push.dtPush false (cour * dtLight dx G) dt = cour * dtLight dx G := by
  intro dt
  have hd : dt ≤ cour * dtLightMin dx first others := by
    refine C214_step cfg _ hL s hs.le _ ?_
    intro p hp
    obtain ⟨c, -, rfl⟩ := List.mem_map.mp hp
    exact min_le_left _ _
  obtain ⟨h1, h2⟩ := C214_shortest dx first others hx G hG
  have hr := rate_nonneg dx G hx
  refine ⟨?_, ?_⟩
  · have e : dt * speed G 1 / dx 1 + dt * speed G 2 / dx 2 + dt * speed G 3 / dx 3 = dt * rate dx G := by
      unfold rate
      ring
    rw [e]
    calc dt * rate dx G ≤ cour * dtLightMin dx first others * rate dx G := mul_le_mul_of_nonneg_right hd hr
      _ = cour * (dtLightMin dx first others * rate dx G) := by ring
      _ ≤ cour * 1 := mul_le_mul_of_nonneg_left h1 hc.le
      _ = cour := mul_one _
  · simp only [Push.dtPush, Bool.false_eq_true, if_false]
    exact max_eq_left (hd.trans (mul_le_mul_of_nonneg_left h2 hc.le))

/-- **C214 (flat space).** In flat space a push by the Courant number times the crossing time moves a packet by at most the Courant number of a zone in every
direction, so for Courant numbers up to one into a neighbouring zone at most. -/
theorem C214_flat (dx : V4) (hx : ∀ mu, 0 < dx mu) (cour tol prev : ℝ) (hc : 0 < cour) (hc1 : cour ≤ 1) (s s' : Push.St ℝ) (ok : Bool)
    (hnull : ip mink ![-s.Kcov 0, s.Kcov 1, s.Kcov 2, s.Kcov 3] ![-s.Kcov 0, s.Kcov 1, s.Kcov 2, s.Kcov 3] = 0) (hk : s.Kcov 0 < 0)
    (h : Push.pushXK (Push.push Push.killMinkowski Push.eta) false tol prev (cour * dtLight dx mink) s = some (s', ok)) (start : ℝ) (i : Fin 3) :
    |s'.X i.succ - s.X i.succ| ≤ cour * dx i.succ ∧ |⌊(s'.X i.succ - start) / dx i.succ⌋ - ⌊(s.X i.succ - start) / dx i.succ⌋| ≤ 1 := by
  obtain ⟨-, -, hm, -⟩ := Push.C41_minkowski tol prev _ s s' ok h
  have hv := C214_speed mink mink_valid RadZone.mink_spacelike _ hnull.le (by simpa using hk) i.succ
  have e : (![-s.Kcov 0, s.Kcov 1, s.Kcov 2, s.Kcov 3] : V4) i.succ / (![-s.Kcov 0, s.Kcov 1, s.Kcov 2, s.Kcov 3] : V4) 0 =
      -(s.Kcov i.succ / s.Kcov 0) := by
    have : s.Kcov 0 ≠ 0 := hk.ne
    fin_cases i <;> simp [div_neg]
  rw [e, abs_neg] at hv
  obtain ⟨hcr, -, hp, -⟩ := C214_crossing dx mink hx
  have hb : |s'.X i.succ - s.X i.succ| ≤ cour * dx i.succ := by
    have : s'.X i.succ - s.X i.succ = -(cour * dtLight dx mink * (s.Kcov i.succ / s.Kcov 0)) := by
      rw [hm i]
      ring
    rw [this, abs_neg, abs_mul, abs_of_pos (mul_pos hc hp)]
    calc cour * dtLight dx mink * |s.Kcov i.succ / s.Kcov 0| ≤ cour * dtLight dx mink * speed mink i.succ :=
          mul_le_mul_of_nonneg_left hv (mul_pos hc hp).le
      _ = cour * (dtLight dx mink * speed mink i.succ) := by ring
      _ ≤ cour * dx i.succ := mul_le_mul_of_nonneg_left (hcr i) hc.le
  refine ⟨hb, ?_⟩
  have hxi := hx i.succ
  have hb1 : |(s'.X i.succ - start) / dx i.succ - (s.X i.succ - start) / dx i.succ| ≤ 1 := by
    rw [← sub_div, abs_div, abs_of_pos hxi, div_le_one hxi]
    have : s'.X i.succ - start - (s.X i.succ - start) = s'.X i.succ - s.X i.succ := by ring
    rw [this]
    nlinarith
  generalize (s'.X i.succ - start) / dx i.succ = a at hb1
  generalize (s.X i.succ - start) / dx i.succ = b at hb1
  obtain ⟨h1, h2⟩ := abs_le.mp hb1
  have fa := Int.floor_le a
  have fa' := Int.lt_floor_add_one a
  have fb := Int.floor_le b
  have fb' := Int.lt_floor_add_one b
  rw [abs_le]
  constructor
  · have : (⌊b⌋ : ℝ) < ⌊a⌋ + 2 := by linarith
    have : ⌊b⌋ < ⌊a⌋ + 2 := by exact_mod_cast this
    omega
  · have : (⌊a⌋ : ℝ) < ⌊b⌋ + 2 := by linarith
    have : ⌊a⌋ < ⌊b⌋ + 2 := by exact_mod_cast this
    omega

/-- In flat space the speed is one. -/
theorem speed_flat (i : Fin 3) : speed mink i.succ = 1 := by
  rw [speed_eq mink mink_valid RadZone.mink_spacelike]
  fin_cases i <;> simp [disc, mink]

/-- Flat space meets the hypotheses, with discriminant one and a crossing time that is not the largest number. -/
example : 0 < disc mink 1 ∧ dtLight (fun _ => 1) mink * speed mink 1 ≤ 1 ∧ Fluid.Spacelike mink ![1, 0, 0, 0] ∧
    ip mink ![1, 1, 0, 0] ![1, 1, 0, 0] = 0 := by
  refine ⟨by simp [disc, mink], (C214_crossing (fun _ => 1) mink fun _ => one_pos).1 0, ?_, ?_⟩
  · intro k hk
    simp [Fin.sum_univ_four] at hk
    simp [ipc, mink, Fin.sum_univ_four, hk]
    nlinarith [sq_nonneg (k 1), sq_nonneg (k 2), sq_nonneg (k 3)]
  · simp [ip, mink, Fin.sum_univ_four]

/-- A geometry with shift meets them as well; there light is faster one way than the other, and the larger speed is taken. -/
example : RadZone.Spacelike sampleGeom ∧ 0 < disc sampleGeom 1 := by
  refine ⟨?_, ?_⟩
  · intro x hx
    simp [ip, sampleGeom, Fin.sum_univ_four, hx]
    nlinarith [sq_nonneg (x 1), sq_nonneg (x 2), sq_nonneg (x 3)]
  · norm_num [disc, sampleGeom]

end Nubhlight.LightStep
