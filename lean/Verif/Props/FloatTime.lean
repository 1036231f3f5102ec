import Verif.Model.FloatTime
import Verif.Props.Rounding
import Mathlib.Tactic.IntervalCases

set_option autoImplicit false
set_option linter.unusedSectionVars false

/-! # Theorems: the end of a run in floating-point arithmetic -/

namespace Nubhlight.FloatTime

open Rounding

variable {f : Fmt} {rnd : ℚ → ℚ}

/-- **C171.** A step shortened to end at the final time ends there exactly, once half of the run is over: neither the difference nor the sum is
rounded. For every format and every rounding to nearest. -/
theorem C171_lands (h : Nearest f rnd) (t tf : ℚ) (ht : IsF f t) (htf : IsF f tf) (h1 : t ≤ tf) (h2 : tf ≤ 2 * t) :
    rnd (tf - t) = tf - t ∧ rnd (t + rnd (tf - t)) = tf := by
  have e : rnd (tf - t) = tf - t := h.id (sterbenz htf ht (by linarith) h2)
  refine ⟨e, ?_⟩
  rw [e]
  have : t + (tf - t) = tf := by ring
  rw [this, h.id htf]

/-- **C171.** In the first half it ends within one unit in the last place of the final time. -/
theorem C171_lands_close (h : Nearest f rnd) (hp : 1 ≤ f.p) (t tf : ℚ) (htf : IsF f tf) (h0 : 0 ≤ t) (h1 : t ≤ tf) (e : ℤ) (he : f.emin ≤ e)
    (hlo : e = f.emin ∨ 2 ^ (e + f.p - 1) ≤ tf) (hhi : tf < 2 ^ (e + f.p)) :
    tf - 2 ^ e ≤ rnd (t + rnd (tf - t)) ∧ rnd (t + rnd (tf - t)) ≤ tf + 2 ^ e := by
  have hpos := two_zpow_pos e
  have htf0 : 0 ≤ tf := le_trans h0 h1
  obtain ⟨M, hM⟩ := htf.multiple e (by rw [abs_of_nonneg htf0]; exact hlo)
  have herr := h.err hp (x := tf - t) e he (by rw [abs_of_nonneg (by linarith)]; linarith)
  rw [abs_le] at herr
  have hM0 : 0 ≤ M := by
    by_contra hc
    push Not at hc
    have : (M : ℚ) < 0 := by exact_mod_cast hc
    nlinarith
  have hM1 : M < 2 ^ f.p := by
    have : (M : ℚ) * 2 ^ e < 2 ^ f.p * 2 ^ e := by
      rw [← hM]; rw [zpow_add₀ (by norm_num), zpow_natCast] at hhi; linarith
    have := lt_of_mul_lt_mul_right this hpos.le
    exact_mod_cast this
  have hup : IsF f (((M + 1 : ℤ) : ℚ) * 2 ^ e) := isF_of_mul hp _ _ he (by rw [abs_of_nonneg (by omega)]; omega)
  have hdn : IsF f (((M - 1 : ℤ) : ℚ) * 2 ^ e) := by
    apply isF_of_mul hp _ _ he
    have : (1 : ℤ) ≤ 2 ^ f.p := one_le_pow₀ (by norm_num)
    rw [abs_le]; constructor <;> omega
  have e1 : ((M + 1 : ℤ) : ℚ) * 2 ^ e = tf + 2 ^ e := by rw [hM]; push_cast; ring
  have e2 : ((M - 1 : ℤ) : ℚ) * 2 ^ e = tf - 2 ^ e := by rw [hM]; push_cast; ring
  rw [e1] at hup
  rw [e2] at hdn
  exact ⟨h.ge_of hdn (by linarith [herr.1]), h.le_of hup (by linarith [herr.2])⟩

/-! ## Runs -/

/-- What holds from one step to the next in the second half of a run. -/
def Ok (f : Fmt) (rnd : ℚ → ℚ) (cfg : Cfg) (s : St) : Prop :=
  IsF f s.t ∧ cfg.tf ≤ 2 * s.t ∧ s.t ≤ cfg.tf ∧ 0 ≤ s.dt ∧ rnd (s.t + s.dt) ≤ cfg.tf

/-- The proposals are not negative. -/
def nonneg (p : ℚ × List ℚ) : Prop := 0 ≤ p.1 ∧ ∀ x ∈ p.2, 0 ≤ x

lemma foldl_min_ge (l : List ℚ) (a c : ℚ) (ha : c ≤ a) (hl : ∀ x ∈ l, c ≤ x) : c ≤ l.foldl min a := by
  induction l generalizing a with
  | nil => exact ha
  | cons x l ih => exact ih (min a x) (le_min ha (hl x (by simp))) (fun y hy => hl y (by simp [hy]))

lemma minDt_ge (cfg : Cfg) (dt c : ℚ) (p : ℚ × List ℚ) (hcap : c ≤ rnd (cfg.safe * dt)) (h1 : c ≤ p.1) (h2 : ∀ x ∈ p.2, c ≤ x) :
    c ≤ minDt rnd cfg dt p := by
  have hc : ∀ x, c ≤ x → c ≤ capDt rnd cfg dt x := by
    intro x hx
    unfold capDt
    split_ifs
    · exact hcap
    · exact hx
  apply foldl_min_ge _ _ _ (hc _ h1)
  intro x hx
  obtain ⟨y, hy, rfl⟩ := List.mem_map.mp hx
  exact hc y (h2 y hy)

lemma rnd_nonneg (h : Nearest f rnd) {x : ℚ} (hx : 0 ≤ x) : 0 ≤ rnd x := h.ge_of (IsF.zero f) hx

lemma step_ok (h : Nearest f rnd) (cfg : Cfg) (htf : IsF f cfg.tf) (hs : 0 ≤ cfg.safe) (hsm : 0 ≤ cfg.small) (s : St) (ho : Ok f rnd cfg s)
    (p : ℚ × List ℚ) (hp : nonneg p) : Ok f rnd cfg (step rnd cfg s p) ∧ s.t ≤ (step rnd cfg s p).t := by
  obtain ⟨h1, h2, h3, h4, h5⟩ := ho
  have hm : s.t ≤ rnd (s.t + s.dt) := h.ge_of h1 (by linarith)
  have hF : IsF f (rnd (s.t + s.dt)) := (h _).1
  have hland := C171_lands h (rnd (s.t + s.dt)) cfg.tf hF htf h5 (by linarith)
  have hn : 0 ≤ rescueDt rnd cfg s.dt (minDt rnd cfg s.dt p) := by
    unfold rescueDt
    split_ifs
    · apply rnd_nonneg h
      have := rnd_nonneg h (div_nonneg h4 hs)
      linarith
    · exact minDt_ge cfg s.dt 0 p (rnd_nonneg h (mul_nonneg hs h4)) hp.1 hp.2
  refine ⟨⟨hF, by simp only [step]; linarith, h5, ?_, ?_⟩, hm⟩
  · simp only [step, clipDt]
    split_ifs
    · exact rnd_nonneg h (by linarith)
    · exact hn
  · simp only [step, clipDt]
    split_ifs with c
    · exact hland.2.le
    · exact not_lt.mp c

/-- **C171, the part that holds.** From the middle of a run on, whatever the steps proposed by the ranks, time never goes back, never passes the final
time, and a run that ends does so exactly at the final time. Missing: the first half, `C171_overshoots`; stalling, `C171_stalls`. -/
theorem C171_exact_partial (h : Nearest f rnd) (cfg : Cfg) (htf : IsF f cfg.tf) (hs : 0 ≤ cfg.safe) (hsm : 0 ≤ cfg.small) (s : St)
    (ho : Ok f rnd cfg s) (ps : List (ℚ × List ℚ)) (hps : ∀ p ∈ ps, nonneg p) :
    List.Pairwise (· ≤ ·) (s.t :: (run rnd cfg ps s).map St.t) ∧ (∀ x ∈ run rnd cfg ps s, x.t ≤ cfg.tf) ∧
    (¬ (final rnd cfg ps s).t < cfg.tf → (final rnd cfg ps s).t = cfg.tf) := by
  have main : ∀ (ps : List (ℚ × List ℚ)) (s : St), Ok f rnd cfg s → (∀ p ∈ ps, nonneg p) →
      List.Pairwise (· ≤ ·) (s.t :: (run rnd cfg ps s).map St.t) ∧ ∀ x ∈ run rnd cfg ps s, x.t ≤ cfg.tf := by
    intro ps
    induction ps with
    | nil => intro s _ _; simp [run]
    | cons p ps ih =>
      intro s ho hps
      by_cases hlt : s.t < cfg.tf
      · obtain ⟨ho', hle⟩ := step_ok h cfg htf hs hsm s ho p (hps p (by simp))
        obtain ⟨i1, i2⟩ := ih _ ho' (fun q hq => hps q (by simp [hq]))
        simp only [run, if_pos hlt, List.map_cons]
        refine ⟨?_, ?_⟩
        · rw [List.pairwise_cons]
          refine ⟨?_, i1⟩
          intro x hx
          rcases List.mem_cons.mp hx with rfl | hx
          · exact hle
          · exact le_trans hle ((List.pairwise_cons.mp i1).1 x hx)
        · intro x hx
          rcases List.mem_cons.mp hx with rfl | hx
          · exact ho'.2.2.1
          · exact i2 x hx
      · simp only [run, if_neg hlt]; simp
  obtain ⟨m1, m2⟩ := main ps s ho hps
  refine ⟨m1, m2, ?_⟩
  intro hend
  apply le_antisymm _ (not_lt.mp hend)
  unfold final
  rw [List.getLastD_eq_getLast?]
  cases hl : (run rnd cfg ps s).getLast? with
  | none => exact ho.2.2.1
  | some x => exact m2 x (List.mem_of_getLast? hl)

lemma final_cons (rnd : ℚ → ℚ) (cfg : Cfg) (p : ℚ × List ℚ) (ps : List (ℚ × List ℚ)) (s : St) (h : s.t < cfg.tf) :
    final rnd cfg (p :: ps) s = final rnd cfg ps (step rnd cfg s p) := by
  unfold final
  simp only [run, if_pos h]
  cases hr : run rnd cfg ps (step rnd cfg s p) with
  | nil => rfl
  | cons a l => simp only [List.getLastD_eq_getLast?, List.getLast?_cons, Option.getD_some]

lemma final_stop (rnd : ℚ → ℚ) (cfg : Cfg) (ps : List (ℚ × List ℚ)) (s : St) (h : ¬ s.t < cfg.tf) : final rnd cfg ps s = s := by
  cases ps with
  | nil => rfl
  | cons p ps => simp [final, run, h]

/-- **C171.** A run from the middle on comes to its end if the steps the ranks propose stay above the last place of the final time (and of `SMALL`):
after at most `2 (tf - t) / c + 2` steps of at least `c`. -/
theorem C171_terminates (h : Nearest f rnd) (hp : 1 ≤ f.p) (cfg : Cfg) (htf : IsF f cfg.tf) (hs : 1 ≤ cfg.safe) (hsm : 0 ≤ cfg.small) (s : St)
    (ho : Ok f rnd cfg s) (c : ℚ) (hFc : IsF f c) (e : ℤ) (he : f.emin ≤ e) (htf2 : cfg.tf ≤ 2 ^ (e + f.p)) (hc : 2 ^ e ≤ c) (hcs : cfg.small ≤ c)
    (hdt : c ≤ s.dt) (ps : List (ℚ × List ℚ)) (hps : ∀ p ∈ ps, c ≤ p.1 ∧ ∀ x ∈ p.2, c ≤ x) (hlen : 2 * (cfg.tf - s.t) / c + 2 ≤ ps.length) :
    (final rnd cfg ps s).t = cfg.tf := by
  have hpos := two_zpow_pos e
  have hc0 : 0 < c := lt_of_lt_of_le hpos hc
  have hnn : ∀ p ∈ ps, nonneg p := fun p hp => ⟨le_trans hc0.le (hps p hp).1, fun x hx => le_trans hc0.le ((hps p hp).2 x hx)⟩
  have prog : ∀ s : St, Ok f rnd cfg s → c ≤ s.dt → s.t + c / 2 ≤ rnd (s.t + s.dt) ∨ rnd (s.t + s.dt) = cfg.tf := by
    intro s ho hd
    have h0 : 0 ≤ s.t := by linarith [ho.2.1, ho.2.2.1]
    by_cases hb : s.t + s.dt ≤ 2 ^ (e + f.p)
    · left
      have := h.err hp (x := s.t + s.dt) e he (by rw [abs_of_nonneg (by linarith)]; exact hb)
      rw [abs_le] at this
      linarith [this.1]
    · right
      push Not at hb
      have hF : IsF f (2 ^ (e + f.p : ℤ)) := by
        have := isF_of_mul (f := f) hp (2 ^ f.p) e he (by rw [abs_of_pos (by positivity)])
        have e1 : (((2 : ℤ) ^ f.p : ℤ) : ℚ) * 2 ^ e = 2 ^ (e + f.p : ℤ) := by
          rw [zpow_add₀ (by norm_num), zpow_natCast]; push_cast; ring
        rwa [e1] at this
      exact le_antisymm ho.2.2.2.2 (le_trans htf2 (h.ge_of hF hb.le))
  have main : ∀ (ps : List (ℚ × List ℚ)) (s : St), Ok f rnd cfg s → (∀ p ∈ ps, c ≤ p.1 ∧ ∀ x ∈ p.2, c ≤ x) →
      (c ≤ s.dt ∨ rnd (s.t + s.dt) = cfg.tf) → 2 * (cfg.tf - s.t) / c + 2 ≤ ps.length → (final rnd cfg ps s).t = cfg.tf := by
    intro ps
    induction ps with
    | nil =>
      intro s ho _ _ hl
      exfalso
      have : 0 ≤ 2 * (cfg.tf - s.t) / c := div_nonneg (by linarith [ho.2.2.1]) hc0.le
      simp at hl
      linarith
    | cons p ps ih =>
      intro s ho hps hd hl
      by_cases hlt : s.t < cfg.tf
      · have hnp : nonneg p := ⟨le_trans hc0.le (hps p (by simp)).1, fun x hx => le_trans hc0.le ((hps p (by simp)).2 x hx)⟩
        obtain ⟨ho', _⟩ := step_ok h cfg htf (by linarith) hsm s ho p hnp
        rw [final_cons rnd cfg p ps s hlt]
        have hdone : rnd (s.t + s.dt) = cfg.tf → (final rnd cfg ps (step rnd cfg s p)).t = cfg.tf := by
          intro he
          have ht : (step rnd cfg s p).t = cfg.tf := he
          rw [final_stop rnd cfg ps _ (by rw [ht]; exact lt_irrefl _), ht]
        rcases hd with hd | hd
        · rcases prog s ho hd with hpr | hpr
          · apply ih _ ho' (fun q hq => hps q (by simp [hq]))
            · simp only [step, clipDt]
              split_ifs with hclip
              · right
                exact (C171_lands h _ cfg.tf (h _).1 htf ho.2.2.2.2 ho'.2.1).2
              · left
                have hcap : c ≤ rnd (cfg.safe * s.dt) := h.ge_of hFc (by nlinarith)
                have hm := minDt_ge cfg s.dt c p hcap (hps p (by simp)).1 (hps p (by simp)).2
                unfold rescueDt
                rw [if_neg (by rintro ⟨_, hx⟩; linarith)]
                exact hm
            · have ht : (step rnd cfg s p).t = rnd (s.t + s.dt) := rfl
              rw [ht]
              have h1 : 2 * (cfg.tf - rnd (s.t + s.dt)) / c ≤ 2 * (cfg.tf - s.t) / c - 1 := by
                rw [div_le_iff₀ hc0, sub_mul, div_mul_cancel₀ _ hc0.ne']
                linarith
              simp only [List.length_cons, Nat.cast_add, Nat.cast_one] at hl
              linarith
          · exact hdone hpr
        · exact hdone hd
      · rw [final_stop rnd cfg _ _ hlt]
        exact le_antisymm ho.2.2.1 (not_lt.mp hlt)
  exact main ps s ho hps (Or.inl hdt) hlen

/-! ## Where the exact statement fails -/

/-- **C171.** A run stalls as soon as its steps are below half of the last place of the time: time does not move, in any number of steps. -/
theorem C171_stalls (h : Nearest f rnd) (cfg : Cfg) (hs : 1 ≤ cfg.safe) (s : St) (ht : IsF f s.t) (hlt : s.t < cfg.tf)
    (e : ℤ) (hbig : 2 ^ (e + f.p - 1) ≤ s.t) (hF : IsF f s.dt) (hd0 : 0 ≤ s.dt) (hd1 : cfg.small ≤ s.dt) (hd : 2 * s.dt < 2 ^ e)
    (ps : List (ℚ × List ℚ)) (hps : ∀ p ∈ ps, IsF f p.1 ∧ cfg.small ≤ p.1 ∧ 0 ≤ p.1 ∧ 2 * p.1 < 2 ^ e ∧ p.2 = []) :
    (∀ x ∈ run rnd cfg ps s, x.t = s.t) ∧ (run rnd cfg ps s).length = ps.length := by
  have stay : ∀ (t d : ℚ), IsF f t → 2 ^ (e + f.p - 1) ≤ t → 0 ≤ d → 2 * d < 2 ^ e → rnd (t + d) = t := by
    intro t d hFt hb h0 h1
    have hpw := two_zpow_pos (e + f.p - 1)
    obtain ⟨m, hm⟩ := hFt.multiple e (Or.inr (by rw [abs_of_nonneg (by linarith)]; exact hb))
    have hge : t ≤ rnd (t + d) := h.ge_of hFt (by linarith)
    obtain ⟨n, hn⟩ := (h (t + d)).1.multiple e (Or.inr (by rw [abs_of_nonneg (by linarith)]; linarith))
    have hnear := (h (t + d)).2 t hFt
    have e1 : |t - (t + d)| = d := by rw [abs_of_nonpos (by linarith)]; ring
    rw [e1, abs_le] at hnear
    have hup : (n : ℚ) * 2 ^ e < (m + 1) * 2 ^ e := by rw [← hn]; linarith [hnear.2]
    have hpos := two_zpow_pos e
    have hnm : n < m + 1 := by
      have := lt_of_mul_lt_mul_right hup hpos.le
      exact_mod_cast this
    have hmn : (n : ℚ) ≤ m := by exact_mod_cast (by omega : n ≤ m)
    apply le_antisymm _ hge
    rw [hn, hm]
    exact mul_le_mul_of_nonneg_right hmn hpos.le
  induction ps generalizing s with
  | nil => simp [run]
  | cons p ps ih =>
    obtain ⟨q1, q2, q3, q4, q5⟩ := hps p (by simp)
    have hstep : step rnd cfg s p = ⟨s.t, min (rnd (cfg.safe * s.dt)) p.1⟩ := by
      have hst := stay s.t s.dt ht hbig hd0 hd
      have hmin : minDt rnd cfg s.dt p = min (rnd (cfg.safe * s.dt)) p.1 := by
        unfold minDt capDt
        rw [q5]
        simp only [List.map_nil, List.foldl_nil]
        split_ifs with c
        · rw [min_eq_left (le_of_lt c)]
        · rw [min_eq_right (not_lt.mp c)]
      have hsd : s.dt ≤ rnd (cfg.safe * s.dt) := h.ge_of hF (by nlinarith)
      have hres : rescueDt rnd cfg s.dt (min (rnd (cfg.safe * s.dt)) p.1) = min (rnd (cfg.safe * s.dt)) p.1 := by
        unfold rescueDt
        rw [if_neg]
        rintro ⟨_, hx⟩
        rcases min_lt_iff.mp hx with hx | hx <;> linarith
      simp only [step, hst, hmin, hres]
      congr 1
      unfold clipDt
      rw [if_neg]
      rw [stay s.t _ ht hbig (le_min (by linarith) q3) (by have := min_le_right (rnd (cfg.safe * s.dt)) p.1; linarith)]
      exact not_lt.mpr hlt.le
    have hsd : s.dt ≤ rnd (cfg.safe * s.dt) := h.ge_of hF (by nlinarith)
    have hmF : IsF f (min (rnd (cfg.safe * s.dt)) p.1) := by
      rcases min_choice (rnd (cfg.safe * s.dt)) p.1 with hh | hh <;> rw [hh]
      · exact (h _).1
      · exact q1
    have hm2 := min_le_right (rnd (cfg.safe * s.dt)) p.1
    obtain ⟨i1, i2⟩ := ih ⟨s.t, min (rnd (cfg.safe * s.dt)) p.1⟩ ht hlt hbig hmF (le_min (by linarith) q3) (le_min (by linarith) q2) (by simp only; linarith)
      (fun q hq => hps q (by simp [hq]))
    simp only [run, if_pos hlt, hstep, List.length_cons]
    refine ⟨?_, by rw [i2]⟩
    intro x hx
    rcases List.mem_cons.mp hx with rfl | hx
    · rfl
    · exact i1 x hx

/-- **C171, full statement.** In double precision a run from the start ends exactly at the final time, whenever the ranks' proposals stay above
a positive bound. -/
def FullC171 : Prop :=
  ∀ (cfg : Cfg) (dt0 c : ℚ) (prop : ℕ → ℚ × List ℚ), IsF double cfg.tf → IsF double dt0 → 0 < dt0 → dt0 ≤ cfg.tf → 1 ≤ cfg.safe → cfg.safe ≤ 2 →
    0 ≤ cfg.small → 0 < c → cfg.small ≤ c → (∀ n, c ≤ (prop n).1 ∧ ∀ x ∈ (prop n).2, c ≤ x) →
    ∃ n, (final (rne double) cfg ((List.range n).map prop) ⟨0, dt0⟩).t = cfg.tf

/-- A run of two steps: the final time, and the first step. The steps proposed do not matter. -/
def wCfg : Cfg := ⟨(2 ^ 53 - 2 ^ 49 + 3) / 2 ^ 52, 13 / 10, 1 / 10 ^ 20, true⟩
def wDt : ℚ := (2 ^ 53 - 2 ^ 50 + 3) / 2 ^ 53

lemma double_nearest : Nearest double (rne double) := rne_nearest double (by decide)

lemma rneD (x : ℚ) (e m : ℤ) (he : -1074 ≤ e) (h1 : 2 ^ (e + 52) ≤ |x|) (h2 : |x| < 2 ^ (e + 53)) (hr : roundEven (x / 2 ^ e) = m) :
    rne double x = m * 2 ^ e := rne_eq double x e m he (by simpa [double, add_sub_assoc] using h1) (by simpa [double] using h2) hr

lemma isF_double (m e : ℤ) (he : -1074 ≤ e) (hm : |m| < 2 ^ 53) (x : ℚ) (hx : x = m * 2 ^ e) : IsF double x := ⟨m, e, he, hm, hx⟩

lemma wDt_F : IsF double wDt := isF_double (2 ^ 53 - 2 ^ 50 + 3) (-53) (by norm_num) (by norm_num) _ (by norm_num [wDt])
lemma wTf_F : IsF double wCfg.tf := isF_double (2 ^ 53 - 2 ^ 49 + 3) (-52) (by norm_num) (by norm_num) _ (by norm_num [wCfg])

lemma roundEven_half (n : ℤ) (h : n % 2 = 1) : roundEven (n + 1 / 2) = n + 1 := by
  have hf : Int.fract ((n : ℚ) + 1 / 2) = 1 / 2 := by
    rw [Int.fract_intCast_add]; exact Int.fract_eq_self.mpr ⟨by norm_num, by norm_num⟩
  have hfl : ⌊(n : ℚ) + 1 / 2⌋ = n := by
    rw [Int.floor_intCast_add]; norm_num
  unfold roundEven
  rw [hf, hfl]
  norm_num
  omega

lemma w_d : rne double (wCfg.tf - wDt) = (2 ^ 52 + 2) / 2 ^ 52 := by
  rw [rneD _ (-52) (2 ^ 52 + 1 + 1) (by norm_num) (by norm_num [wCfg, wDt]) (by norm_num [wCfg, wDt]) (by
    rw [← roundEven_half (2 ^ 52 + 1) (by norm_num)]
    congr 1
    norm_num [wCfg, wDt])]
  norm_num

lemma w_t2 : rne double (wDt + (2 ^ 52 + 2) / 2 ^ 52) = (2 ^ 53 - 2 ^ 49 + 4) / 2 ^ 52 := by
  rw [rneD _ (-52) (2 ^ 53 - 2 ^ 49 + 3 + 1) (by norm_num) (by norm_num [wDt]) (by norm_num [wDt]) (by
    rw [← roundEven_half (2 ^ 53 - 2 ^ 49 + 3) (by norm_num)]
    congr 1
    norm_num [wDt])]
  norm_num

/-- **C171.** In double precision with the default rounding, a run of two steps, within the limit on growth, passes its final time by one unit in the
last place: the step is rounded up, and so is the time. -/
theorem C171_overshoots (prop : ℕ → ℚ × List ℚ) (hprop : ∀ n, 2 ≤ (prop n).1 ∧ ∀ x ∈ (prop n).2, 2 ≤ x) (n : ℕ) (hn : 2 ≤ n) :
    (final (rne double) wCfg ((List.range n).map prop) ⟨0, wDt⟩).t = wCfg.tf + 1 / 2 ^ 52 := by
  have hN := double_nearest
  have h1 : step (rne double) wCfg ⟨0, wDt⟩ (prop 0) = ⟨wDt, (2 ^ 52 + 2) / 2 ^ 52⟩ := by
    have ht : rne double (0 + wDt) = wDt := by rw [zero_add]; exact hN.id wDt_F
    have hcap : 9 / 8 ≤ rne double (wCfg.safe * wDt) :=
      hN.ge_of (isF_double 9 (-3) (by norm_num) (by norm_num) _ (by norm_num)) (by norm_num [wCfg, wDt])
    have hm := minDt_ge (rnd := rne double) wCfg wDt (9 / 8) (prop 0) hcap (by linarith [(hprop 0).1]) (fun x hx => by linarith [(hprop 0).2 x hx])
    have hres : rescueDt (rne double) wCfg wDt (minDt (rne double) wCfg wDt (prop 0)) = minDt (rne double) wCfg wDt (prop 0) := by
      unfold rescueDt
      rw [if_neg]
      rintro ⟨_, hx⟩
      have : wCfg.small < 1 := by norm_num [wCfg]
      linarith
    simp only [step, ht, hres]
    congr 1
    unfold clipDt
    rw [if_pos, w_d]
    have h2 : (2 : ℚ) ≤ rne double (wDt + minDt (rne double) wCfg wDt (prop 0)) := by
      apply hN.ge_of (isF_double 1 1 (by norm_num) (by norm_num) _ (by norm_num))
      have : 7 / 8 ≤ wDt := by norm_num [wDt]
      linarith
    have : wCfg.tf < 2 := by norm_num [wCfg]
    exact lt_of_lt_of_le this h2
  obtain ⟨k, rfl⟩ : ∃ k, n = k + 2 := ⟨n - 2, by omega⟩
  have hr : (List.range (k + 2)).map prop = prop 0 :: prop 1 :: (List.range k).map (fun i => prop (i + 2)) := by
    rw [List.range_succ_eq_map, List.range_succ_eq_map]
    simp [Function.comp_def]
  rw [hr, final_cons _ _ _ _ _ (by norm_num [wCfg]), h1, final_cons _ _ _ _ _ (by norm_num [wCfg, wDt]), final_stop]
  · simp only [step, w_t2]
    norm_num [wCfg]
  · simp only [step, w_t2]
    norm_num [wCfg]

/-- **C171.** The full statement is false. -/
theorem C171_full_false : ¬ FullC171 := by
  intro h
  obtain ⟨n, hn⟩ := h wCfg wDt 2 (fun _ => (2, [])) wTf_F wDt_F (by norm_num [wDt]) (by norm_num [wDt, wCfg]) (by norm_num [wCfg]) (by norm_num [wCfg])
    (by norm_num [wCfg]) (by norm_num) (by norm_num [wCfg]) (by intro n; simp)
  rcases Nat.lt_or_ge n 2 with h2 | h2
  · have hle := C171_overshoots (fun _ => (2, [])) (by intro n; simp) 2 (le_refl _)
    interval_cases n
    · simp [final, run, wCfg] at hn
      norm_num at hn
    · have h0 : (0 : ℚ) < wCfg.tf := by norm_num [wCfg]
      have e : (List.range 1).map (fun _ : ℕ => ((2 : ℚ), ([] : List ℚ))) = [(2, [])] := rfl
      rw [e, final_cons _ _ _ _ _ h0] at hn
      simp only [final, run, List.getLastD_nil, step, zero_add, double_nearest.id wDt_F] at hn
      norm_num [wDt, wCfg] at hn
  · rw [C171_overshoots (fun _ => (2, [])) (by intro n; simp) n h2] at hn
    norm_num at hn

/-- **C171.** Stalling from the start: one step of 1, then proposals of 2⁻⁵⁴ and more for ever: the time stays at 1 and the run never ends. -/
theorem C171_stall_witness (tf : ℚ) (htf : 1 < tf) (n : ℕ) :
    (∀ x ∈ run (rne double) ⟨tf, 13 / 10, 1 / 10 ^ 20, true⟩ (List.replicate n (1 / 2 ^ 54, [])) ⟨1, 1 / 2 ^ 54⟩, x.t = 1) ∧
      (run (rne double) ⟨tf, 13 / 10, 1 / 10 ^ 20, true⟩ (List.replicate n (1 / 2 ^ 54, [])) ⟨1, 1 / 2 ^ 54⟩).length = n := by
  have h54 : IsF double (1 / 2 ^ 54) := isF_double 1 (-54) (by norm_num) (by norm_num) _ (by norm_num)
  have := C171_stalls double_nearest ⟨tf, 13 / 10, 1 / 10 ^ 20, true⟩ (by norm_num) ⟨1, 1 / 2 ^ 54⟩
    (isF_double 1 0 (by norm_num) (by norm_num) _ (by norm_num)) htf (-52) (by norm_num [double]) h54 (by norm_num) (by norm_num) (by norm_num)
    (List.replicate n (1 / 2 ^ 54, [])) (by
      intro p hp
      obtain ⟨_, rfl⟩ := List.mem_replicate.mp hp
      exact ⟨h54, by norm_num, by norm_num, by norm_num, rfl⟩)
  exact ⟨this.1, by rw [this.2]; simp⟩

/-- The hypotheses of `C171_exact_partial` and `C171_terminates` are met in double precision: from 1 to 2 in steps of 1/4. -/
example : (final (rne double) ⟨2, 13 / 10, 1 / 10 ^ 20, true⟩ (List.replicate 10 (1 / 4, [1 / 2])) ⟨1, 1 / 4⟩).t = 2 :=
  C171_terminates double_nearest (by decide) _ (isF_double 1 1 (by norm_num) (by norm_num) _ (by norm_num)) (by norm_num) (by norm_num) _
    ⟨isF_double 1 0 (by norm_num) (by norm_num) _ (by norm_num), by norm_num, by norm_num, by norm_num,
      double_nearest.le_of (isF_double 1 1 (by norm_num) (by norm_num) _ (by norm_num)) (by norm_num)⟩
    (1 / 4) (isF_double 1 (-2) (by norm_num) (by norm_num) _ (by norm_num)) (-50) (by norm_num [double]) (by norm_num [double]) (by norm_num)
    (by norm_num) (by norm_num) _ (by
      intro p hp
      obtain ⟨_, rfl⟩ := List.mem_replicate.mp hp
      simp; norm_num) (by norm_num)

end Nubhlight.FloatTime
