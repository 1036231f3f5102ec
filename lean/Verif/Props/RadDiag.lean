import Verif.Model.RadDiag
import Verif.Common
import Mathlib.Tactic.FinCases
import Mathlib.Algebra.BigOperators.Field

set_option autoImplicit false
set_option linter.unusedSectionVars false

/-! # Properties of the diagnostics made from the list of packets (C103, C105, C106, C108) -/

namespace Nubhlight.RadDiag

variable {Z : Type} [DecidableEq Z]

/-! ## C103 -/

/-- The packets, tracers excluded, that lie in a set of zones: specification. -/
def inRegion (S : Finset Z) (l : List (Ph Z)) : List (Ph Z) := l.filter fun p => !p.tracer && decide (p.zone ∈ S)

theorem inRegion_cons (S : Finset Z) (p : Ph Z) (l : List (Ph Z)) :
    inRegion S (p :: l) = if p.tracer = false ∧ p.zone ∈ S then p :: inRegion S l else inRegion S l := by
  unfold inRegion
  rw [List.filter_cons]
  cases ht : p.tracer <;> by_cases hz : p.zone ∈ S <;> simp [hz]

theorem content_aux (G : Geo Z) (hv : ∀ z, G.vol z ≠ 0) (S : Finset Z) (mu nu : Fin 4) (l : List (Ph Z)) : ∀ a : Arrays Z,
    ∑ z ∈ S, (l.foldl (deposit G) a).R z mu nu * G.vol z =
      ∑ z ∈ S, a.R z mu nu * G.vol z + G.k * ((inRegion S l).map fun p => p.w * p.Kcov nu * (p.Kcon mu / p.Kcon 0)).sum := by
  induction l with
  | nil => intro a; simp [inRegion]
  | cons p l ih =>
    intro a
    rw [List.foldl_cons, ih, inRegion_cons]
    have h1 : ∑ z ∈ S, (deposit G a p).R z mu nu * G.vol z = ∑ z ∈ S, a.R z mu nu * G.vol z +
        if p.tracer = false ∧ p.zone ∈ S then G.k * (p.w * p.Kcov nu * (p.Kcon mu / p.Kcon 0)) else 0 := by
      unfold deposit
      cases ht : p.tracer
      · simp only [Bool.false_eq_true, if_false, true_and]
        have e : ∀ z ∈ S, (if z = p.zone then a.R z mu nu + G.k * p.Kcon mu * p.Kcov nu * p.w / (p.Kcon 0 * G.vol p.zone) else a.R z mu nu) *
            G.vol z = a.R z mu nu * G.vol z + if z = p.zone then G.k * (p.w * p.Kcov nu * (p.Kcon mu / p.Kcon 0)) else 0 := by
          intro z _
          by_cases hz : z = p.zone
          · subst hz
            rw [if_pos rfl, if_pos rfl]
            have := hv p.zone
            by_cases h0 : p.Kcon 0 = 0
            · simp [h0]
            · field_simp
          · rw [if_neg hz, if_neg hz, add_zero]
        rw [Finset.sum_congr rfl e, Finset.sum_add_distrib, Finset.sum_ite_eq']
      · simp
    rw [h1]
    by_cases hc : p.tracer = false ∧ p.zone ∈ S
    · rw [if_pos hc, if_pos hc, List.map_cons, List.sum_cons]
      ring
    · rw [if_neg hc, if_neg hc, add_zero]

/-- **C103 (contents).** For every list of packets and every set of zones: the volume integral of each component of the tensor over the set
is the sum over the packets there of weight times momentum times velocity. Packets elsewhere and tracers contribute nothing, and nothing is
left from earlier calls. -/
theorem C103_content (G : Geo Z) (hv : ∀ z, G.vol z ≠ 0) (S : Finset Z) (mu nu : Fin 4) (l : List (Ph Z)) :
    ∑ z ∈ S, (setRmunu G l).R z mu nu * G.vol z =
      G.k * ((inRegion S l).map fun p => p.w * p.Kcov nu * (p.Kcon mu / p.Kcon 0)).sum := by
  unfold setRmunu
  rw [content_aux G hv S mu nu l]
  simp

/-- **C103 (energy and momentum).** The integral of the time components is the total momentum of the packets in the set. -/
theorem C103_momentum (G : Geo Z) (hv : ∀ z, G.vol z ≠ 0) (S : Finset Z) (nu : Fin 4) (l : List (Ph Z)) (hK : ∀ p ∈ l, p.Kcon 0 ≠ 0) :
    ∑ z ∈ S, (setRmunu G l).R z 0 nu * G.vol z = G.k * ((inRegion S l).map fun p => p.w * p.Kcov nu).sum := by
  rw [C103_content G hv]
  congr 2
  refine List.map_congr_left fun p hp => ?_
  have := hK p (List.mem_filter.1 hp).1
  rw [div_self this, mul_one]

/-- **C103 (numbers).** The counts of packets and the number densities are those of the packets in the set. -/
theorem C103_number (G : Geo Z) (hv : ∀ z, G.vol z ≠ 0) (hL : G.L ≠ 0) (S : Finset Z) (l : List (Ph Z)) :
    ∑ z ∈ S, (setRmunu G l).N z = (inRegion S l).length ∧
    ∑ z ∈ S, (setRmunu G l).n z * (G.vol z * G.L ^ 3) = ((inRegion S l).map Ph.w).sum := by
  unfold setRmunu
  have key : ∀ (l : List (Ph Z)) (a : Arrays Z),
      ∑ z ∈ S, (l.foldl (deposit G) a).N z = ∑ z ∈ S, a.N z + (inRegion S l).length ∧
      ∑ z ∈ S, (l.foldl (deposit G) a).n z * (G.vol z * G.L ^ 3) = ∑ z ∈ S, a.n z * (G.vol z * G.L ^ 3) + ((inRegion S l).map Ph.w).sum := by
    intro l
    induction l with
    | nil => intro a; simp [inRegion]
    | cons p l ih =>
      intro a
      rw [List.foldl_cons, (ih _).1, (ih _).2, inRegion_cons]
      have h1 : ∑ z ∈ S, (deposit G a p).N z = ∑ z ∈ S, a.N z + if p.tracer = false ∧ p.zone ∈ S then 1 else 0 := by
        unfold deposit
        cases ht : p.tracer
        · simp only [Bool.false_eq_true, if_false, true_and]
          have e : ∀ z ∈ S, (if z = p.zone then a.N z + 1 else a.N z) = a.N z + if z = p.zone then 1 else 0 := by
            intro z _
            by_cases hz : z = p.zone
            · rw [if_pos hz, if_pos hz]
            · rw [if_neg hz, if_neg hz, add_zero]
          rw [Finset.sum_congr rfl e, Finset.sum_add_distrib, Finset.sum_ite_eq']
        · simp
      have h2 : ∑ z ∈ S, (deposit G a p).n z * (G.vol z * G.L ^ 3) = ∑ z ∈ S, a.n z * (G.vol z * G.L ^ 3) +
          if p.tracer = false ∧ p.zone ∈ S then p.w else 0 := by
        unfold deposit
        cases ht : p.tracer
        · simp only [Bool.false_eq_true, if_false, true_and]
          have e : ∀ z ∈ S, (if z = p.zone then a.n z + p.w / (G.vol p.zone * G.L ^ 3) else a.n z) * (G.vol z * G.L ^ 3) =
              a.n z * (G.vol z * G.L ^ 3) + if z = p.zone then p.w else 0 := by
            intro z _
            by_cases hz : z = p.zone
            · subst hz
              rw [if_pos rfl, if_pos rfl]
              have := hv p.zone
              field_simp
            · rw [if_neg hz, if_neg hz, add_zero]
          rw [Finset.sum_congr rfl e, Finset.sum_add_distrib, Finset.sum_ite_eq']
        · simp
      rw [h1, h2]
      by_cases hc : p.tracer = false ∧ p.zone ∈ S
      · simp only [if_pos hc, List.map_cons, List.sum_cons, List.length_cons]
        exact ⟨by omega, by ring⟩
      · simp only [if_neg hc, add_zero, and_self]
  have h := key l ⟨fun _ _ _ => 0, fun _ => 0, fun _ => 0⟩
  simpa using h

theorem single (G : Geo Z) (hv : ∀ z, G.vol z ≠ 0) (z : Z) (mu nu : Fin 4) (l : List (Ph Z)) :
    (setRmunu G l).R z mu nu * G.vol z = G.k * ((inRegion {z} l).map fun p => p.w * p.Kcov nu * (p.Kcon mu / p.Kcon 0)).sum := by
  rw [← C103_content G hv {z} mu nu l, Finset.sum_singleton]

/-- **C103 (order).** The result does not depend on the order of the packets, hence on their distribution over threads. -/
theorem C103_order (G : Geo Z) (hv : ∀ z, G.vol z ≠ 0) (l l' : List (Ph Z)) (h : l.Perm l') (z : Z) (mu nu : Fin 4) :
    (setRmunu G l).R z mu nu = (setRmunu G l').R z mu nu := by
  refine mul_right_cancel₀ (hv z) ?_
  rw [single G hv, single G hv]
  congr 1
  exact ((h.filter _).map _).sum_eq

theorem sum_map_zero {α : Type} (l : List α) (f : α → ℝ) (h : ∀ p ∈ l, f p = 0) : (l.map f).sum = 0 := by
  induction l with
  | nil => rfl
  | cons a l ih => rw [List.map_cons, List.sum_cons, h a (List.mem_cons_self ..), ih fun p hp => h p (List.mem_cons_of_mem _ hp), add_zero]

theorem sum_map_add {α : Type} (l : List α) (f g : α → ℝ) : (l.map f).sum + (l.map g).sum = (l.map fun p => f p + g p).sum := by
  induction l with
  | nil => simp
  | cons a l ih => simp only [List.map_cons, List.sum_cons]; linarith

/-- **C103 (no trace).** When the wave vectors of the packets are null, the tensor has no trace. -/
theorem C103_trace (G : Geo Z) (hv : ∀ z, G.vol z ≠ 0) (l : List (Ph Z))
    (hnull : ∀ p ∈ l, p.Kcon 0 * p.Kcov 0 + p.Kcon 1 * p.Kcov 1 + p.Kcon 2 * p.Kcov 2 + p.Kcon 3 * p.Kcov 3 = 0) (z : Z) :
    (setRmunu G l).R z 0 0 + (setRmunu G l).R z 1 1 + (setRmunu G l).R z 2 2 + (setRmunu G l).R z 3 3 = 0 := by
  refine (mul_eq_zero.1 ?_).resolve_right (hv z)
  rw [add_mul, add_mul, add_mul, single G hv, single G hv, single G hv, single G hv, ← mul_add, ← mul_add, ← mul_add, sum_map_add,
    sum_map_add, sum_map_add, sum_map_zero, mul_zero]
  intro p hp
  have h := hnull p (List.mem_filter.1 hp).1
  have e : p.w * p.Kcov 0 * (p.Kcon 0 / p.Kcon 0) + p.w * p.Kcov 1 * (p.Kcon 1 / p.Kcon 0) + p.w * p.Kcov 2 * (p.Kcon 2 / p.Kcon 0) +
      p.w * p.Kcov 3 * (p.Kcon 3 / p.Kcon 0) =
      p.w * (p.Kcon 0 * p.Kcov 0 + p.Kcon 1 * p.Kcov 1 + p.Kcon 2 * p.Kcov 2 + p.Kcon 3 * p.Kcov 3) / p.Kcon 0 := by ring
  rw [e, h, mul_zero, zero_div]

/-- **C103 (sign).** Packets of positive energy at infinity give a negative (mixed) energy component, the sign used for the logged radiation
energy. -/
theorem C103_sign (G : Geo Z) (hk : 0 ≤ G.k) (hv : ∀ z, 0 < G.vol z) (l : List (Ph Z)) (hp : ∀ p ∈ l, 0 ≤ p.w ∧ p.Kcov 0 ≤ 0) (z : Z) :
    (setRmunu G l).R z 0 0 ≤ 0 := by
  have h := single G (fun z => (hv z).ne') z 0 0 l
  have hs : ((inRegion {z} l).map fun p => p.w * p.Kcov 0 * (p.Kcon 0 / p.Kcon 0)).sum ≤ 0 := by
    have : ∀ m : List (Ph Z), (∀ p ∈ m, 0 ≤ p.w ∧ p.Kcov 0 ≤ 0) → (m.map fun p => p.w * p.Kcov 0 * (p.Kcon 0 / p.Kcon 0)).sum ≤ 0 := by
      intro m hm
      induction m with
      | nil => simp
      | cons a m ih =>
        rw [List.map_cons, List.sum_cons]
        have h1 := hm a (List.mem_cons_self ..)
        have h2 := ih fun p hp => hm p (List.mem_cons_of_mem _ hp)
        have h3 : a.w * a.Kcov 0 * (a.Kcon 0 / a.Kcon 0) ≤ 0 := by
          have h4 := mul_nonpos_of_nonneg_of_nonpos h1.1 h1.2
          by_cases h0 : a.Kcon 0 = 0
          · rw [h0, div_zero, mul_zero]
          · rw [div_self h0, mul_one]; exact h4
        linarith
    exact this _ fun p hp' => hp p (List.mem_filter.1 hp').1
  have h5 : (setRmunu G l).R z 0 0 * G.vol z ≤ 0 := by rw [h]; exact mul_nonpos_of_nonneg_of_nonpos hk hs
  by_contra hc
  have := mul_pos (not_le.1 hc) (hv z)
  linarith

/-- Two packets and a tracer, in two zones of volume 2. -/
example : (setRmunu ⟨3, 1, fun _ => 2⟩ [⟨false, 4, (0 : Fin 2), ![1, 1, 0, 0], ![-1, 1, 0, 0]⟩, ⟨true, 9, 0, ![1, 0, 0, 0], ![-1, 0, 0, 0]⟩,
    ⟨false, 5, 1, ![2, 0, 2, 0], ![-2, 0, 2, 0]⟩]).R 0 1 0 = -6 := by
  simp [setRmunu, deposit]
  norm_num

/-! ## C105 -/

/-- Leptons present on all ranks: the specification, sums over zones and over packets of the electron flavour. -/
noncomputable def present (rs : List RankIn) : ℝ :=
  (rs.map fun r => r.gas.sum + ((r.packets.filter fun p => p.1 = 0).map Prod.snd).sum - ((r.packets.filter fun p => p.1 = 1).map Prod.snd).sum).sum

theorem gasOf_eq (r : RankIn) : gasOf r = r.gas.sum := by
  unfold gasOf
  rw [List.sum_eq_foldl]

theorem radOf_eq (r : RankIn) : radOf r =
    ((r.packets.filter fun p => p.1 = 0).map Prod.snd).sum - ((r.packets.filter fun p => p.1 = 1).map Prod.snd).sum := by
  unfold radOf
  have key : ∀ (l : List (ℤ × ℝ)) (s : ℝ), l.foldl (fun s p => if p.1 ≠ -1 then s + p.2 * leptonSign p.1 else s) s =
      s + (((l.filter fun p => p.1 = 0).map Prod.snd).sum - ((l.filter fun p => p.1 = 1).map Prod.snd).sum) := by
    intro l
    induction l with
    | nil => intro s; simp
    | cons p l ih =>
      intro s
      rw [List.foldl_cons, ih]
      obtain ⟨ty, w⟩ := p
      simp only [List.filter_cons]
      by_cases h0 : ty = 0
      · subst h0; simp [leptonSign]; ring
      · by_cases h1 : ty = 1
        · subst h1; simp [leptonSign]; ring
        · by_cases h2 : ty = -1
          · subst h2; simp
          · simp [leptonSign, h0, h1]
  rw [key]
  ring

theorem audit_tot (a : Audit) (rs : List RankIn) : (audit a rs).tot = present rs + (a.lost + total rs RankIn.lost) := by
  unfold audit present total
  simp only
  congr 1
  have : ∀ l : List RankIn, (l.map radOf).sum + (l.map gasOf).sum = (l.map fun r => r.gas.sum +
      ((r.packets.filter fun p => p.1 = 0).map Prod.snd).sum - ((r.packets.filter fun p => p.1 = 1).map Prod.snd).sum).sum := by
    intro l
    induction l with
    | nil => simp
    | cons r l ih =>
      simp only [List.map_cons, List.sum_cons]
      rw [← ih, gasOf_eq, radOf_eq]
      ring
  exact this rs

/-- **C105 (account).** For every run: after each audit the total is what is present in gas and packets on all ranks plus everything recorded
as lost since the start of the account. -/
theorem C105_account : ∀ (l : List (List RankIn)) (n : ℕ) (a b : Audit) (rs : List RankIn), audits n a (l ++ [rs]) = some b →
    b.tot = present rs + b.lost ∧ b.lost = a.lost + ((l ++ [rs]).map fun r => total r RankIn.lost).sum := by
  intro l
  induction l with
  | nil =>
    intro n a b rs h
    simp only [List.nil_append, audits] at h
    split at h
    · exact absurd h (by simp)
    · obtain rfl := Option.some.inj h
      refine ⟨?_, ?_⟩
      · rw [audit_tot]; rfl
      · simp [audit]
  | cons q l ih =>
    intro n a b rs h
    simp only [List.cons_append, audits] at h
    split at h
    · exact absurd h (by simp)
    · obtain ⟨h1, h2⟩ := ih _ _ _ _ h
      refine ⟨h1, ?_⟩
      rw [h2]
      simp [audit]
      ring

/-- A history that conserves leptons: what is present plus what was lost so far is always `c`. -/
def Conserving (c : ℝ) : ℝ → List (List RankIn) → Prop
  | _, [] => True
  | lost, rs :: l => present rs + (lost + total rs RankIn.lost) = c ∧ Conserving c (lost + total rs RankIn.lost) l

/-- **C105 (no false alarm).** A run that conserves leptons is never stopped by the audit, on any number of ranks. -/
theorem C105_no_false_alarm (c : ℝ) : ∀ (l : List (List RankIn)) (n : ℕ) (a : Audit), (n ≤ 1 ∨ a.tot = c) → Conserving c a.lost l →
    (audits n a l).isSome := by
  intro l
  induction l with
  | nil => intro n a _ _; rfl
  | cons rs l ih =>
    intro n a ha hc
    have ht : (audit a rs).tot = c := by rw [audit_tot]; exact hc.1
    have hs : stops n a rs = false := by
      unfold stops
      rcases ha with ha | ha
      · have : ¬ n > 1 := by omega
        simp [this]
      · have : exceeds (perc a.tot (audit a rs).tot) = false := by
          rw [ht, ha]
          unfold perc
          by_cases h0 : c = 0
          · subst h0; simp [exceeds]
          · rw [if_pos h0, sub_self, mul_zero, zero_div]
            simp [exceeds]
        simp [this]
    simp only [audits, hs, Bool.false_eq_true, if_false]
    exact ih (n + 1) (audit a rs) (Or.inr ht) hc.2

/-- **C105 (alarm on several ranks; partial).** On two or more ranks, after the first step, the run is stopped exactly when the total has
changed by more than 1e-10 percent. Missing: runs on one rank (`C105_single_rank`). -/
theorem C105_alarm_partial (n : ℕ) (hn : 1 < n) (a : Audit) (rs : List RankIn) (hr : 1 < rs.length) (ht : (audit a rs).tot ≠ 0) :
    stops n a rs = true ↔ |(audit a rs).tot - a.tot| > 1 / 10 ^ 12 * |(audit a rs).tot| := by
  generalize htot : (audit a rs).tot = t at *
  have e : stops n a rs = decide (|100 * (t - a.tot) / t| > 1 / 10 ^ 10) := by
    unfold stops
    rw [htot]
    unfold perc
    rw [if_pos ht]
    simp [exceeds, hn, hr]
  rw [e, decide_eq_true_iff, abs_div, abs_mul, gt_iff_lt, lt_div_iff₀ (abs_pos.2 ht), gt_iff_lt, abs_of_pos (by norm_num : (0 : ℝ) < 100)]
  constructor
  · intro h
    have : 1 / 10 ^ 12 * |t| = (1 / 10 ^ 10 * |t|) / 100 := by ring
    rw [this, div_lt_iff₀ (by norm_num)]
    linarith
  · intro h
    have : 1 / 10 ^ 10 * |t| = 100 * (1 / 10 ^ 12 * |t|) := by ring
    rw [this]
    exact mul_lt_mul_of_pos_left h (by norm_num)

/-- **C105 (one rank).** On one rank the audit never stops the run, whatever is created or destroyed. -/
theorem C105_single_rank : ∀ (l : List (List RankIn)), (∀ rs ∈ l, rs.length ≤ 1) → ∀ (n : ℕ) (a : Audit), (audits n a l).isSome := by
  intro l
  induction l with
  | nil => intro _ n a; rfl
  | cons rs l ih =>
    intro h n a
    have hs : stops n a rs = false := by
      have : ¬ rs.length > 1 := by have := h rs (List.mem_cons_self ..); omega
      unfold stops
      simp [this]
    simp only [audits, hs, Bool.false_eq_true, if_false]
    exact ih (fun q hq => h q (List.mem_cons_of_mem _ hq)) _ _

/-- **C105 (flavour conversion).** Converting an electron-type packet into a heavy one, which conserves leptons, changes the audited total by
the weight of the packet. -/
theorem C105_conversion (a : Audit) (r : RankIn) (rs : List RankIn) (w : ℝ) :
    (audit a ({ r with packets := (2, w) :: r.packets } :: rs)).tot = (audit a ({ r with packets := (0, w) :: r.packets } :: rs)).tot - w := by
  rw [audit_tot, audit_tot]
  simp [present, total]
  ring

/-- The full property: after the first step a change beyond the threshold stops the run, whatever the number of ranks. -/
def FullC105 : Prop :=
  ∀ (n : ℕ), 1 < n → ∀ (a : Audit) (rs : List RankIn), rs ≠ [] → (audit a rs).tot ≠ 0 →
    |(audit a rs).tot - a.tot| > 1 / 10 ^ 12 * |(audit a rs).tot| → stops n a rs = true

/-- **C105 refuted.** One rank, total doubled in a step. -/
theorem C105_full_false : ¬ FullC105 := by
  intro h
  have ht : (audit ⟨1, 0⟩ [⟨0, [2], []⟩]).tot = 2 := by rw [audit_tot]; simp [present, total]
  have h1 := h 2 (by omega) ⟨1, 0⟩ [⟨0, [2], []⟩] (by simp) (by rw [ht]; norm_num) (by rw [ht]; norm_num)
  unfold stops at h1
  simp at h1

/-- Two ranks; a packet is recorded as lost in the second step: conserving, not stopped. -/
example : Conserving 7 0 [[⟨0, [3], [(0, 2)]⟩, ⟨0, [1], [(1, 1), (0, 2)]⟩], [⟨2, [3], []⟩, ⟨0, [1], [(1, 1), (0, 2)]⟩]] := by
  simp [Conserving, present, total]
  norm_num

/-- Two ranks, one lepton of ten missing: stopped. -/
example : stops 5 ⟨10, 0⟩ [⟨0, [4], []⟩, ⟨0, [5], []⟩] = true := by
  have ht : (audit ⟨10, 0⟩ [⟨0, [4], []⟩, ⟨0, [5], []⟩]).tot = 9 := by rw [audit_tot]; simp [present, total]; norm_num
  rw [C105_alarm_partial 5 (by omega) _ _ (by simp) (by rw [ht]; norm_num), ht]
  norm_num

/-! ## C106 -/

theorem small_pos : 0 < small := by unfold small; positivity

/-- **C106 (bins; exact arithmetic).** With exact arithmetic every radius falls in an existing bin. -/
theorem C106_bins_partial (N : ℕ) (hN : 0 < N) (rmax r : ℝ) (hr : 0 ≤ r) (hm : small ≤ rmax) :
    0 ≤ bin (· - ·) (· + ·) N rmax r ∧ bin (· - ·) (· + ·) N rmax r < N := by
  have hs := small_pos
  have hN' : (0 : ℝ) < N := by exact_mod_cast hN
  have hpos : 0 < rmax := lt_of_lt_of_le hs hm
  have hd : 0 < rmax / (N : ℝ) + small := add_pos (div_pos hpos hN') hs
  unfold bin
  simp only [abs_of_pos hpos]
  have h1 : (0 : ℝ) ≤ (if r < rmax - small then r else rmax - small) := by split <;> linarith
  have h2 : (if r < rmax - small then r else rmax - small) < rmax := by split <;> linarith
  constructor
  · exact Int.floor_nonneg.2 (div_nonneg h1 hd.le)
  · rw [Int.floor_lt]
    push_cast
    rw [div_lt_iff₀ hd]
    have : (N : ℝ) * (rmax / (N : ℝ) + small) = rmax + N * small := by field_simp
    rw [this]
    have := mul_pos hN' hs
    linarith

/-- **C106 (right bin).** A radius below the largest is in bin `m` exactly when it lies between the edges of bin `m`, which are multiples of
the bin width (increased by `SMALL`). -/
theorem C106_right_bin (N : ℕ) (hN : 0 < N) (rmax r : ℝ) (hm : small ≤ rmax) (hr : r < rmax - small) (m : ℤ) :
    bin (· - ·) (· + ·) N rmax r = m ↔ (m : ℝ) * (rmax / N + small) ≤ r ∧ r < ((m : ℝ) + 1) * (rmax / N + small) := by
  have hs := small_pos
  have hN' : (0 : ℝ) < N := by exact_mod_cast hN
  have hpos : 0 < rmax := lt_of_lt_of_le hs hm
  have hd : 0 < rmax / (N : ℝ) + small := add_pos (div_pos hpos hN') hs
  unfold bin
  simp only [abs_of_pos hpos, if_pos hr]
  rw [Int.floor_eq_iff, le_div_iff₀ hd, div_lt_iff₀ hd]

/-- **C106 (absorbed constants).** When `SMALL` is absorbed in both operations, as it is in double precision for every `rmax` above about
1e-4 and bin width above about 1e-4, radii at or beyond the largest have the index one past the last bin. -/
theorem C106_absorbed (N : ℕ) (hN : 0 < N) (rmax r : ℝ) (hm : 0 < rmax) (hr : rmax ≤ r) (sub add : ℝ → ℝ → ℝ) (hsub : sub rmax small = rmax)
    (hadd : add (rmax / N) small = rmax / N) : bin sub add N rmax r = N := by
  have hN' : (0 : ℝ) < N := by exact_mod_cast hN
  unfold bin
  simp only [abs_of_pos hm, hsub, hadd]
  rw [if_neg (not_lt.2 hr), div_div_eq_mul_div, mul_comm, mul_div_assoc, div_self hm.ne', mul_one]
  simp

/-- **C106 (contents).** The bins hold the total weight of the packets: when all indices are bins, the sum over bins is the sum of weights. -/
theorem C106_contents (N : ℕ) (l : List (ℤ × ℝ)) (hl : ∀ p ∈ l, 0 ≤ p.1 ∧ p.1 < N) :
    ∑ m ∈ Finset.range N, hist l (m : ℤ) = (l.map Prod.snd).sum := by
  unfold hist
  have key : ∀ (l : List (ℤ × ℝ)), (∀ p ∈ l, 0 ≤ p.1 ∧ p.1 < N) → ∀ s : ℕ → ℝ,
      ∑ m ∈ Finset.range N, l.foldl (fun s p => if p.1 = (m : ℤ) then s + p.2 else s) (s m) = ∑ m ∈ Finset.range N, s m + (l.map Prod.snd).sum := by
    intro l
    induction l with
    | nil => intro _ s; simp
    | cons p l ih =>
      intro h s
      simp only [List.foldl_cons]
      rw [ih (fun q hq => h q (List.mem_cons_of_mem _ hq)) fun m => if p.1 = (m : ℤ) then s m + p.2 else s m]
      obtain ⟨h1, h2⟩ := h p (List.mem_cons_self ..)
      obtain ⟨k, hk⟩ := Int.eq_ofNat_of_zero_le h1
      have e : ∀ m ∈ Finset.range N, (if p.1 = (m : ℤ) then s m + p.2 else s m) = s m + if m = k then p.2 else 0 := by
        intro m _
        rw [hk]
        by_cases hm : m = k
        · subst hm; rw [if_pos rfl, if_pos rfl]
        · rw [if_neg fun hc => hm (by exact_mod_cast hc.symm), if_neg hm, add_zero]
      rw [Finset.sum_congr rfl e, Finset.sum_add_distrib, Finset.sum_ite_eq', if_pos (Finset.mem_range.2 (by omega)), List.map_cons, List.sum_cons]
      ring
  have := key l hl fun _ => 0
  simpa using this

/-- **C106 (packets that moved).** A packet made in a zone of a rank starting at `gsMade` and held by a rank starting at `gsNow` is entered
at a place displaced by the difference of the starts. -/
theorem C106_moved (startx dx : ℝ) (gsMade gsNow i : ℕ) :
    originX startx dx gsNow i = centre startx dx gsMade i + ((gsNow : ℝ) - gsMade) * dx := by
  unfold originX centre
  ring

/-- The full property: the histogram uses the place where the packet was made. -/
def FullC106 : Prop := ∀ (startx dx : ℝ) (gsMade gsNow i : ℕ), 0 < dx → originX startx dx gsNow i = centre startx dx gsMade i

/-- **C106 refuted.** -/
theorem C106_full_false : ¬ FullC106 := by
  intro h
  have h1 := h 0 1 0 8 3 one_pos
  rw [C106_moved 0 1 0 8 3] at h1
  norm_num at h1

/-- On the rank that made it the place is right. -/
theorem C106_same_rank (startx dx : ℝ) (gs i : ℕ) : originX startx dx gs i = startx + (((gs + i : ℕ) : ℝ) - 3 + 1 / 2) * dx := by
  unfold originX centre
  push_cast
  ring

example : bin (· - ·) (· + ·) 4 8 3 = 1 := by
  rw [C106_right_bin 4 (by omega) 8 3 (by unfold small; norm_num) (by unfold small; norm_num)]
  unfold small
  norm_num

/-! ## C108 -/

/-- Weight of one type: specification. -/
noncomputable def weightOf (l : List (ℤ × ℝ)) (ty : ℕ) : ℝ := ((l.filter fun p => p.1 = (ty : ℤ)).map Prod.snd).sum

theorem typeCount_eq (l : List (ℤ × ℝ)) (ty : ℕ) : typeCount l ty = weightOf l ty := by
  unfold typeCount weightOf
  have key : ∀ (l : List (ℤ × ℝ)) (s : ℝ), l.foldl (fun s p => if p.1 ≠ -1 then (if p.1 = (ty : ℤ) then s + p.2 else s) else s) s =
      s + ((l.filter fun p => p.1 = (ty : ℤ)).map Prod.snd).sum := by
    intro l
    induction l with
    | nil => intro s; simp
    | cons p l ih =>
      intro s
      rw [List.foldl_cons, ih, List.filter_cons]
      by_cases h : p.1 = (ty : ℤ)
      · have : p.1 ≠ -1 := by omega
        simp [h]
        ring
      · simp [h]
  rw [key, zero_add]

/-- **C108 (shares).** For every population with packets of nonzero total weight, the printed percentage of a type is its share of the weight
of all packets other than tracers, and the percentages add up to 100. -/
theorem C108_shares (n : ℕ) (l : List (ℤ × ℝ)) (hl : ∀ p ∈ l, p.1 < n) (hm : ∀ p ∈ l, -1 ≤ p.1)
    (h0 : ((l.filter fun p => p.1 ≠ -1).map Prod.snd).sum ≠ 0) :
    (∀ ty < n, typeShare n l ty = some (100 * weightOf l ty / ((l.filter fun p => p.1 ≠ -1).map Prod.snd).sum)) ∧
    ∑ ty ∈ Finset.range n, (typeShare n l ty).getD 0 = 100 := by
  have htot : ∑ i ∈ Finset.range n, typeCount l i = ((l.filter fun p => p.1 ≠ -1).map Prod.snd).sum := by
    simp only [typeCount_eq]
    clear h0
    induction l with
    | nil => simp [weightOf]
    | cons p l ih =>
      have ih' := ih (fun q hq => hl q (List.mem_cons_of_mem _ hq)) fun q hq => hm q (List.mem_cons_of_mem _ hq)
      have h1 := hl p (List.mem_cons_self ..)
      have h2 := hm p (List.mem_cons_self ..)
      have e : ∀ i ∈ Finset.range n, weightOf (p :: l) i = weightOf l i + if (i : ℤ) = p.1 then p.2 else 0 := by
        intro i _
        unfold weightOf
        rw [List.filter_cons]
        by_cases h : p.1 = (i : ℤ)
        · simp [h]; ring
        · simp [h, Ne.symm h]
      rw [Finset.sum_congr rfl e, Finset.sum_add_distrib, ih', List.filter_cons]
      by_cases h : p.1 = -1
      · rw [Finset.sum_eq_zero fun i _ => if_neg (by omega)]
        simp [h]
      · obtain ⟨k, hk⟩ := Int.eq_ofNat_of_zero_le (by omega : 0 ≤ p.1)
        rw [Finset.sum_eq_single_of_mem k (Finset.mem_range.2 (by omega)) fun i _ hi => if_neg (by rw [hk]; exact_mod_cast hi),
          if_pos hk.symm]
        simp [h]
        ring
  have hs : ∀ ty, typeShare n l ty = some (100 * weightOf l ty / ((l.filter fun p => p.1 ≠ -1).map Prod.snd).sum) := by
    intro ty
    unfold typeShare
    simp only [htot]
    rw [if_neg h0, typeCount_eq]
    congr 1
    ring
  refine ⟨fun ty _ => hs ty, ?_⟩
  simp only [hs, Option.getD_some]
  rw [← Finset.sum_div, ← Finset.mul_sum]
  have : ∑ i ∈ Finset.range n, weightOf l i = ((l.filter fun p => p.1 ≠ -1).map Prod.snd).sum := by
    rw [← htot]; exact Finset.sum_congr rfl fun i _ => (typeCount_eq l i).symm
  rw [this, mul_div_assoc, div_self h0, mul_one]

/-- **C108 (no packets).** Without packets, or with tracers only, the percentages are not numbers. -/
theorem C108_empty (n : ℕ) (l : List (ℤ × ℝ)) (h : ∀ p ∈ l, p.1 = -1) (ty : ℕ) : typeShare n l ty = none := by
  have hz : ∀ i, typeCount l i = 0 := by
    intro i
    rw [typeCount_eq]
    unfold weightOf
    rw [List.filter_eq_nil_iff.2]
    · rfl
    · intro p hp
      have := h p hp
      simp only [decide_eq_true_eq]
      omega
  unfold typeShare
  simp only [hz, Finset.sum_const_zero, if_true]

theorem foldl_max_nat (l : List ℕ) : ∀ r : ℕ, r ≤ l.foldl max r ∧ (∀ x ∈ l, x ≤ l.foldl max r) ∧ (l.foldl max r = r ∨ l.foldl max r ∈ l) := by
  induction l with
  | nil => intro r; simp
  | cons a l ih =>
    intro r
    obtain ⟨h1, h2, h3⟩ := ih (max r a)
    rw [List.foldl_cons]
    refine ⟨le_trans (le_max_left _ _) h1, ?_, ?_⟩
    · intro x hx
      rcases List.mem_cons.1 hx with rfl | hx
      · exact le_trans (le_max_right _ _) h1
      · exact h2 x hx
    · rcases h3 with h3 | h3
      · rw [h3]
        rcases max_choice r a with h | h
        · exact Or.inl h
        · rw [h]; exact Or.inr (List.mem_cons_self ..)
      · exact Or.inr (List.mem_cons_of_mem _ h3)

theorem foldl_min_nat (l : List ℕ) : ∀ r : ℕ, l.foldl min r ≤ r ∧ (∀ x ∈ l, l.foldl min r ≤ x) ∧ (l.foldl min r = r ∨ l.foldl min r ∈ l) := by
  induction l with
  | nil => intro r; simp
  | cons a l ih =>
    intro r
    obtain ⟨h1, h2, h3⟩ := ih (min r a)
    rw [List.foldl_cons]
    refine ⟨le_trans h1 (min_le_left _ _), ?_, ?_⟩
    · intro x hx
      rcases List.mem_cons.1 hx with rfl | hx
      · exact le_trans h1 (min_le_right _ _)
      · exact h2 x hx
    · rcases h3 with h3 | h3
      · rw [h3]
        rcases min_choice r a with h | h
        · exact Or.inl h
        · rw [h]; exact Or.inr (List.mem_cons_self ..)
      · exact Or.inr (List.mem_cons_of_mem _ h3)

/-- **C108 (load imbalance).** Whenever a rank has a packet, the printed imbalance is between 0 and 1, is 0 exactly when all ranks have
equally many packets and 1 exactly when some rank has none. -/
theorem C108_imbalance (r0 : ℕ) (l : List ℕ) (h : ∃ x ∈ r0 :: l, 0 < x) : ∃ v, imbalance r0 l = some v ∧ 0 ≤ v ∧ v ≤ 1 ∧
    (v = 0 ↔ ∀ x ∈ r0 :: l, ∀ y ∈ r0 :: l, x = y) ∧ (v = 1 ↔ ∃ x ∈ r0 :: l, x = 0) := by
  obtain ⟨a1, a2, a3⟩ := foldl_max_nat l r0
  obtain ⟨b1, b2, b3⟩ := foldl_min_nat l r0
  have hM : ∀ x ∈ r0 :: l, x ≤ l.foldl max r0 := fun x hx => by
    rcases List.mem_cons.1 hx with rfl | hx
    · exact a1
    · exact a2 x hx
  have hm : ∀ x ∈ r0 :: l, l.foldl min r0 ≤ x := fun x hx => by
    rcases List.mem_cons.1 hx with rfl | hx
    · exact b1
    · exact b2 x hx
  have hMin : l.foldl min r0 ∈ r0 :: l := List.mem_cons.2 b3
  have hMax : l.foldl max r0 ∈ r0 :: l := List.mem_cons.2 a3
  obtain ⟨x, hx, hx0⟩ := h
  have hpos : 0 < l.foldl max r0 := lt_of_lt_of_le hx0 (hM x hx)
  have hle : l.foldl min r0 ≤ l.foldl max r0 := hM _ hMin
  unfold imbalance
  rw [if_neg hpos.ne']
  generalize l.foldl max r0 = M at *
  generalize l.foldl min r0 = m at *
  have hM' : (0 : ℝ) < M := by exact_mod_cast hpos
  have hle' : (m : ℝ) ≤ M := by exact_mod_cast hle
  have h0 : (0 : ℝ) ≤ (m : ℝ) / M := div_nonneg (Nat.cast_nonneg _) hM'.le
  have h1 : (m : ℝ) / M ≤ 1 := (div_le_one hM').2 hle'
  refine ⟨_, rfl, by linarith, by linarith, ?_, ?_⟩
  · constructor
    · intro h
      have : (m : ℝ) / M = 1 := by linarith
      rw [div_eq_one_iff_eq hM'.ne'] at this
      have e : m = M := by exact_mod_cast this
      intro x hx y hy
      have := hm x hx; have := hM x hx; have := hm y hy; have := hM y hy
      omega
    · intro h
      have e : m = M := h m hMin M hMax
      rw [e, div_self hM'.ne', sub_self]
  · constructor
    · intro h
      have : (m : ℝ) / M = 0 := by linarith
      rcases div_eq_zero_iff.1 this with h | h
      · exact ⟨m, hMin, by exact_mod_cast h⟩
      · exact absurd h hM'.ne'
    · rintro ⟨x, hx, rfl⟩
      have := hm 0 hx
      have e : m = 0 := by omega
      rw [e, Nat.cast_zero, zero_div, sub_zero]

example : typeShare 4 [(0, 3), (-1, 50), (1, 1)] 0 = some 75 := by
  rw [(C108_shares 4 _ (by simp) (by simp) (by simp; norm_num)).1 0 (by omega)]
  simp [weightOf]
  norm_num

end Nubhlight.RadDiag
