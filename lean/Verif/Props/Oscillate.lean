import Verif.Common
import Verif.Model.Oscillate
import Mathlib.Algebra.Order.BigOperators.Group.Finset
import Mathlib.Data.Fin.VecNotation
import Mathlib.Tactic.FinCases

set_option autoImplicit false

/-!
# C51, C52, C53, C86 to C89: flavour conversion
-/

set_option linter.unusedSectionVars false

namespace Nubhlight.Oscillate

variable {K : Type*} [Field K] [LinearOrder K] [IsStrictOrderedRing K]

theorem SMALL_pos : (0 : K) < SMALL := by unfold SMALL; positivity

section

variable {D C ι : Type*} [DecidableEq C] [DecidableEq ι] [Fintype ι] (bin : D → Bins C ι)

theorem oscOne_cases (n : ℕ) (force : Bool) (M : Mom K C) (g : Bool → C → ι → K) (p : Pk K D) (u : K) :
    oscOne bin n force M g p u = p ∨
      (p.type ≠ -1 ∧ u < pOsc bin force M g p ∧ oscOne bin n force M g p u = { p with type := partner n p.type, osc := true }) := by
  unfold oscOne pOsc
  by_cases h : isTracer p
  · simp [h]
  · simp only [h, Bool.false_eq_true, if_false]
    have ht : p.type ≠ -1 := by simpa [isTracer] using h
    split_ifs with h1 h2
    · exact Or.inr ⟨ht, h2, rfl⟩
    · exact Or.inl rfl
    · exact Or.inl rfl

/-- **C51 (only the type changes).** Conversion keeps the number of packets; each keeps its weight and every other field, tracers are left
alone, and a packet that keeps its type keeps its flag. -/
theorem C51_fields (n : ℕ) (force : Bool) (M : Mom K C) (g : Bool → C → ι → K) (ps : List (Pk K D)) (us : ℕ → K) :
    (oscillate bin n force M g ps us).length = ps.length ∧
      ∀ (k : ℕ) (p : Pk K D), ps[k]? = some p → ∃ q : Pk K D, (oscillate bin n force M g ps us)[k]? = some q ∧ q.w = p.w ∧ q.rest = p.rest ∧
        (p.type = -1 → q = p) ∧ (q = p ∨ (q.type = partner n p.type ∧ q.osc = true)) := by
  refine ⟨by simp [oscillate], fun k p hp => ⟨oscOne bin n force M g p (us k), by simp [oscillate, hp], ?_⟩⟩
  rcases oscOne_cases bin n force M g p (us k) with h | ⟨ht, _, h⟩
  · rw [h]; exact ⟨rfl, rfl, fun _ => rfl, Or.inl rfl⟩
  · rw [h]; exact ⟨rfl, rfl, fun h' => absurd h' ht, Or.inr ⟨rfl, rfl⟩⟩

/-- **C51 (inactive).** Nothing at all happens in a step whose length is below the conversion time. -/
theorem C51_inactive (n : ℕ) (force : Bool) (M : Mom K C) (ps : List (Pk K D)) (us : ℕ → K) :
    step bin n force false M ps us = (M, ps) := rfl

end

/-- **C51 (partner).** For any even number of types, converting twice restores the type; the particle/antiparticle class (parity of the type)
is preserved exactly when half that number is even, as for the four types of the code. -/
theorem C51_partner (m : ℕ) (hm : 0 < m) (ty : ℤ) (h0 : 0 ≤ ty) (h1 : ty < 2 * m) :
    0 ≤ partner (2 * m) ty ∧ partner (2 * m) ty < 2 * m ∧ partner (2 * m) ty ≠ ty ∧ partner (2 * m) (partner (2 * m) ty) = ty ∧
      (partner (2 * m) ty % 2 = ty % 2 ↔ m % 2 = 0) := by
  have hm2 : 2 * m / 2 = m := by omega
  unfold partner
  rw [hm2]
  push_cast
  have hm' : (0 : ℤ) < m := by exact_mod_cast hm
  by_cases h : ty < m
  · have e1 : (ty + m) % (2 * (m : ℤ)) = ty + m := Int.emod_eq_of_lt (by omega) (by omega)
    rw [e1]
    have e2 : (ty + m + m) % (2 * (m : ℤ)) = ty := by
      have : ty + m + m = ty + 2 * (m : ℤ) := by ring
      rw [this, Int.add_emod_right]
      exact Int.emod_eq_of_lt h0 (by omega)
    rw [e2]
    refine ⟨by omega, by omega, by omega, rfl, by omega⟩
  · have e1 : (ty + m) % (2 * (m : ℤ)) = ty - m := by
      have : ty + m = (ty - m) + 2 * (m : ℤ) := by ring
      rw [this, Int.add_emod_right]
      exact Int.emod_eq_of_lt (by omega) (by omega)
    rw [e1]
    have e2 : (ty - m + m) % (2 * (m : ℤ)) = ty := by
      have : ty - m + m = ty := by ring
      rw [this]
      exact Int.emod_eq_of_lt h0 h1
    rw [e2]
    refine ⟨by omega, by omega, by omega, rfl, by omega⟩

/-- **C51 (four types).** Electron neutrinos turn into heavy neutrinos and back, antineutrinos into antineutrinos. -/
theorem C51_four : partner 4 0 = 2 ∧ partner 4 2 = 0 ∧ partner 4 1 = 3 ∧ partner 4 3 = 1 := by decide

/-- **C51 (probability).** For nonnegative moments the survival probability is between 1/3 and 1. -/
theorem C51_probability (force : Bool) (A B G : K) (hA : 0 ≤ A) (hB : 0 ≤ B) (heavy : Bool) :
    1 / 3 ≤ survival force A B G heavy ∧ survival force A B G heavy ≤ 1 := by
  have hp : (1 : K) / 3 ≤ (if heavy then 2 / 3 else 1 / 3) ∧ (if heavy then (2 : K) / 3 else 1 / 3) ≤ 1 := by
    cases heavy <;> norm_num
  unfold survival
  simp only
  generalize (if heavy = true then (2 : K) / 3 else 1 / 3) = peq at hp ⊢
  obtain ⟨p1, p2⟩ := hp
  split_ifs with h1 h2 h3
  · exact ⟨p1, p2⟩
  · exact ⟨p1, p2⟩
  · have hS := SMALL_pos (K := K)
    have hd : 0 < B + SMALL := by linarith
    have hq0 : 0 ≤ A / (B + SMALL) := div_nonneg hA hd.le
    have hq1 : A / (B + SMALL) ≤ 1 := (div_le_one hd).2 (by linarith)
    rw [mul_div_assoc]
    constructor <;> nlinarith
  · have hS := SMALL_pos (K := K)
    have hd : 0 < A + SMALL := by linarith
    have hq0 : 0 ≤ B / (A + SMALL) := div_nonneg hB hd.le
    have hq1 : B / (A + SMALL) ≤ 1 := (div_le_one hd).2 (by linarith [not_lt.1 h3])
    rw [mul_div_assoc]
    constructor <;> nlinarith

section

variable {D C ι : Type*} [DecidableEq C] [DecidableEq ι] [Fintype ι] (bin : D → Bins C ι)

theorem partA_nonneg (g : ι → K) : 0 ≤ partA g := Finset.sum_nonneg fun m _ => by split_ifs <;> simp
theorem partB_nonneg (g : ι → K) : 0 ≤ partB g := Finset.sum_nonneg fun m _ => by split_ifs <;> simp

/-- Moments are sums of absolute values: all reachable ones are nonnegative. -/
def Nonneg (M : Mom K C) : Prop := ∀ b c, 0 ≤ M.A b c ∧ 0 ≤ M.B b c

theorem nonneg_accumulate (M : Mom K C) (h : Nonneg M) (ps : List (Pk K D)) : Nonneg (accumulate bin M ps) :=
  fun b c => ⟨add_nonneg (h b c).1 (partA_nonneg _), add_nonneg (h b c).2 (partB_nonneg _)⟩

theorem pOsc_bounds (force : Bool) (M : Mom K C) (hM : Nonneg M) (g : Bool → C → ι → K) (p : Pk K D) :
    0 ≤ pOsc bin force M g p ∧ pOsc bin force M g p ≤ 2 / 3 := by
  unfold pOsc
  split_ifs with h1
  · norm_num
  · simp only
    split_ifs with h2
    · have := C51_probability force (M.A (bOsc M (bin p.rest).cell) (bin p.rest).cell) (M.B (bOsc M (bin p.rest).cell) (bin p.rest).cell)
        (g (bOsc M (bin p.rest).cell) (bin p.rest).cell ((bin p.rest).mu (bOsc M (bin p.rest).cell))) (hM _ _).1 (hM _ _).2
        (Emission.nuIsHeavy p.type)
      constructor <;> linarith [this.1, this.2]
    · norm_num

/-- **C52 (draw).** A packet of one of the four types converts exactly for the random numbers of `[0, pOsc)`, part of `[0, 1)`: with a
uniform random number the probability to convert is `pOsc`. -/
theorem C52_draw (force : Bool) (M : Mom K C) (hM : Nonneg M) (g : Bool → C → ι → K) (p : Pk K D) (h0 : 0 ≤ p.type) (h4 : p.type < 4) :
    {u | u ∈ Set.Ico (0 : K) 1 ∧ (oscOne bin 4 force M g p u).type ≠ p.type} = Set.Ico 0 (pOsc bin force M g p) := by
  have hne : partner 4 p.type ≠ p.type := (C51_partner 2 (by norm_num) p.type h0 (by omega)).2.2.1
  have htr : isTracer p = false := by simp [isTracer]; omega
  obtain ⟨b0, b1⟩ := pOsc_bounds bin force M hM g p
  ext u
  simp only [Set.mem_ofPred_eq, Set.mem_Ico]
  constructor
  · rintro ⟨⟨u0, _⟩, h⟩
    rcases oscOne_cases bin 4 force M g p u with h' | ⟨_, hu, _⟩
    · rw [h'] at h; exact absurd rfl h
    · exact ⟨u0, hu⟩
  · rintro ⟨u0, hu⟩
    refine ⟨⟨u0, by linarith⟩, ?_⟩
    unfold pOsc at hu
    rw [htr] at hu
    simp only [Bool.false_eq_true, if_false] at hu
    unfold oscOne
    rw [htr]
    simp only [Bool.false_eq_true, if_false]
    split_ifs at hu ⊢ with h1
    · exact hne
    · linarith

/-- Expected weight of type `ty` in an angle bin after conversion: a packet keeps its type with probability `1 - pOsc`, and has the
partner type with probability `pOsc` (`C52_draw`). -/
def expAngles (M : Mom K C) (g : Bool → C → ι → K) (ps : List (Pk K D)) (b : Bool) (c : C) (ty : ℤ) (m : ι) : K :=
  ((ps.filter (hits bin b c m)).map fun p => p.w * ((if p.type = ty then 1 - pOsc bin false M g p else 0) +
    (if partner 4 p.type = ty then pOsc bin false M g p else 0))).sum

/-- All packets are of one of the four types or tracers. -/
def Typed (ps : List (Pk K D)) : Prop := ∀ p ∈ ps, p.type = -1 ∨ (0 ≤ p.type ∧ p.type < 4)

/-- Probability to convert of a packet in an angle bin of the chosen direction. -/
def qBin (M : Mom K C) (g : Bool → C → ι → K) (c : C) (m : ι) (heavy : Bool) : K :=
  let b := bOsc M c
  if eligible false (M.A b c) (M.B b c) (g b c m) then 1 - survival false (M.A b c) (M.B b c) (g b c m) heavy else 0

theorem pOsc_hit (M : Mom K C) (g : Bool → C → ι → K) (c : C) (m : ι) (p : Pk K D) (h : hits bin (bOsc M c) c m p = true) :
    pOsc bin false M g p = qBin M g c m (Emission.nuIsHeavy p.type) := by
  simp only [hits, Bool.and_eq_true, Bool.not_eq_true', decide_eq_true_eq] at h
  obtain ⟨ht, hc, hm⟩ := h
  unfold pOsc qBin
  rw [ht]
  simp only [Bool.false_eq_true, if_false]
  subst hc
  rw [hm]

theorem expAngles_eq (M : Mom K C) (g : Bool → C → ι → K) (ps : List (Pk K D)) (hty : Typed ps) (c : C) (m : ι) :
    let f := fun ty => angles bin ps (bOsc M c) c ty m
    let e := fun ty => expAngles bin M g ps (bOsc M c) c ty m
    let ql := qBin M g c m false
    let qh := qBin M g c m true
    e 0 = f 0 * (1 - ql) + f 2 * qh ∧ e 1 = f 1 * (1 - ql) + f 3 * qh ∧
      e 2 = f 2 * (1 - qh) + f 0 * ql ∧ e 3 = f 3 * (1 - qh) + f 1 * ql := by
  have hall : ∀ ty ty' : ℤ, (∀ p : Pk K D, 0 ≤ p.type → p.type < 4 → (partner 4 p.type = ty ↔ p.type = ty')) →
      ∀ (hv hv' : Bool), (Emission.nuIsHeavy ty = hv) → (Emission.nuIsHeavy ty' = hv') →
      expAngles bin M g ps (bOsc M c) c ty m = angles bin ps (bOsc M c) c ty m * (1 - qBin M g c m hv) +
        angles bin ps (bOsc M c) c ty' m * qBin M g c m hv' := by
    intro ty ty' hp hv hv' hh hh'
    unfold expAngles angles
    induction ps with
    | nil => simp
    | cons p ps ih =>
      have ih' := ih fun q hq => hty q (List.mem_cons_of_mem _ hq)
      by_cases hhit : hits bin (bOsc M c) c m p = true
      · have htr : p.type ≠ -1 := by
          simp only [hits, isTracer, Bool.and_eq_true, Bool.not_eq_true', beq_eq_false_iff_ne] at hhit
          exact hhit.1
        have h04 := (hty p (by simp)).resolve_left htr
        have hq := pOsc_hit bin M g c m p hhit
        have hpp := hp p h04.1 h04.2
        rw [List.filter_cons, if_pos hhit, List.map_cons, List.sum_cons, ih', hq]
        rw [List.filter_cons, List.filter_cons]
        simp only [hhit, Bool.true_and, decide_eq_true_eq]
        by_cases h1 : p.type = ty
        · by_cases h2 : p.type = ty'
          · rw [if_pos h1, if_pos (hpp.2 h2), if_pos h1, if_pos h2]
            have e1 : Emission.nuIsHeavy p.type = hv := by rw [h1]; exact hh
            have e2 : hv' = hv := by rw [← e1, ← hh', h2]
            rw [e1, e2]
            simp only [List.map_cons, List.sum_cons]; ring
          · rw [if_pos h1, if_neg (fun h => h2 (hpp.1 h)), if_pos h1, if_neg h2]
            have e1 : Emission.nuIsHeavy p.type = hv := by rw [h1]; exact hh
            rw [e1]
            simp only [List.map_cons, List.sum_cons]; ring
        · by_cases h2 : p.type = ty'
          · rw [if_neg h1, if_pos (hpp.2 h2), if_neg h1, if_pos h2]
            have e1 : Emission.nuIsHeavy p.type = hv' := by rw [h2]; exact hh'
            rw [e1]
            simp only [List.map_cons, List.sum_cons]; ring
          · rw [if_neg h1, if_neg (fun h => h2 (hpp.1 h)), if_neg h1, if_neg h2]
            ring
      · rw [List.filter_cons, if_neg hhit, ih', List.filter_cons, List.filter_cons]
        have hf : hits bin (bOsc M c) c m p = false := by simpa using hhit
        simp [hf]
  have hcl : ∀ z : ℤ, 0 ≤ z → z < 4 → z = 0 ∨ z = 1 ∨ z = 2 ∨ z = 3 := fun z _ _ => by omega
  refine ⟨hall 0 2 ?_ false true (by decide) (by decide), hall 1 3 ?_ false true (by decide) (by decide),
    hall 2 0 ?_ true false (by decide) (by decide), hall 3 1 ?_ true false (by decide) (by decide)⟩ <;>
  · intro p h0 h4
    obtain ⟨a, b, cc, d⟩ := C51_four
    rcases hcl p.type h0 h4 with h | h | h | h <;> rw [h] <;> simp [a, b, cc, d]

/-- Expected electron-minus-x lepton number in an angle bin after conversion. -/
def expG (M : Mom K C) (g : Bool → C → ι → K) (ps : List (Pk K D)) (c : C) (m : ι) : K :=
  gtemp fun ty => expAngles bin M g ps (bOsc M c) c ty m

/-- The same before conversion. -/
def nowG (M : Mom K C) (ps : List (Pk K D)) (c : C) (m : ι) : K := gtemp fun ty => angles bin ps (bOsc M c) c ty m

theorem gnu_zero_or (ps : List (Pk K D)) (b : Bool) (c : C) (m : ι) :
    gnu bin ps b c m = 0 ∨ gnu bin ps b c m = gtemp fun ty => angles bin ps b c ty m := by
  unfold gnu
  simp only
  split_ifs
  · exact Or.inr rfl
  · exact Or.inl rfl

/-- The region of smaller moment: negative bins if `A < B`, positive ones otherwise. -/
def Shallow (A B G : K) : Prop := (A < B ∧ G < 0) ∨ (B ≤ A ∧ 0 < G)

/-- **C52 (bin by bin).** In expectation, with any moments: in the shallow region the electron-minus-x number is driven to zero; elsewhere
it shrinks by the factor `1 - shallow / (deep + SMALL)`; bins without a significant value do not change; the numbers of neutrinos and of
antineutrinos in the bin never change. -/
theorem C52_bins (M : Mom K C) (ps : List (Pk K D)) (hty : Typed ps) (c : C) (m : ι)
    (hA : M.A (bOsc M c) c ≠ 0) (hB : M.B (bOsc M c) c ≠ 0) :
    let A := M.A (bOsc M c) c
    let B := M.B (bOsc M c) c
    let G := gnu bin ps (bOsc M c) c m
    let e := fun ty => expAngles bin M (gnu bin ps) ps (bOsc M c) c ty m
    let f := fun ty => angles bin ps (bOsc M c) c ty m
    (Shallow A B G → expG bin M (gnu bin ps) ps c m = 0) ∧
      (G ≠ 0 → ¬ Shallow A B G → expG bin M (gnu bin ps) ps c m = G * (1 - min A B / (max A B + SMALL))) ∧
      (G = 0 → e 0 = f 0 ∧ e 1 = f 1 ∧ e 2 = f 2 ∧ e 3 = f 3) ∧
      e 0 + e 2 = f 0 + f 2 ∧ e 1 + e 3 = f 1 + f 3 := by
  simp only
  obtain ⟨e0, e1, e2, e3⟩ := expAngles_eq bin M (gnu bin ps) ps hty c m
  simp only at e0 e1 e2 e3
  have hg := gnu_zero_or bin ps (bOsc M c) c m
  have hql : ∀ hv, qBin M (gnu bin ps) c m hv = if gnu bin ps (bOsc M c) c m = 0 then 0 else
      1 - survival false (M.A (bOsc M c) c) (M.B (bOsc M c) c) (gnu bin ps (bOsc M c) c m) hv := by
    intro hv
    unfold qBin eligible
    simp only [Bool.or_false, hA, hB, ne_eq, not_false_eq_true, decide_true, Bool.and_true, decide_eq_true_eq]
    by_cases h : gnu bin ps (bOsc M c) c m = 0 <;> simp [h]
  simp only [expG]
  generalize gnu bin ps (bOsc M c) c m = G at *
  generalize M.A (bOsc M c) c = A at *
  generalize M.B (bOsc M c) c = B at *
  have hsh : Shallow A B G → ∀ hv, survival false A B G hv = if hv then 2 / 3 else 1 / 3 := by
    intro h hv
    unfold survival
    simp only [Bool.false_eq_true, if_false]
    rw [if_pos]
    rcases h with ⟨a, b⟩ | ⟨a, b⟩
    · exact Or.inl ⟨a, b⟩
    · exact Or.inr ⟨not_lt.2 a, b⟩
  have hdp : ¬ Shallow A B G → ∀ hv, survival false A B G hv =
      1 - (1 - (if hv then 2 / 3 else 1 / 3)) * min A B / (max A B + SMALL) := by
    intro h hv
    unfold survival
    simp only [Bool.false_eq_true, if_false]
    rw [if_neg]
    · by_cases hab : A < B
      · rw [if_pos hab, if_pos hab, min_eq_left hab.le, max_eq_right hab.le]
      · rw [if_neg hab, if_neg hab, min_eq_right (not_lt.1 hab), max_eq_left (not_lt.1 hab)]
    · rintro (⟨a, b⟩ | ⟨a, b⟩)
      · exact h (Or.inl ⟨a, b⟩)
      · exact h (Or.inr ⟨not_lt.1 a, b⟩)
  refine ⟨fun h => ?_, fun h0 h => ?_, fun h => ?_, ?_, ?_⟩
  · have hG0 : G ≠ 0 := by rcases h with ⟨_, b⟩ | ⟨_, b⟩ <;> exact (by first | exact b.ne | exact b.ne')
    have hl := hql false
    have hh := hql true
    rw [if_neg hG0, hsh h] at hl hh
    simp only [gtemp]
    rw [e0, e1, e2, e3, hl, hh]
    norm_num
    ring
  · have hl := hql false
    have hh := hql true
    rw [if_neg h0, hdp h] at hl hh
    have hG := hg.resolve_left h0
    rw [hG]
    simp only [gtemp]
    rw [e0, e1, e2, e3, hl, hh]
    simp only [Bool.false_eq_true, if_false, if_true]
    ring
  · have hl := hql false
    have hh := hql true
    rw [if_pos h] at hl hh
    rw [e0, e1, e2, e3, hl, hh]
    simp
  · rw [e0, e2]; ring
  · rw [e1, e3]; ring

/-- Change of the angle-integrated expectation, for any moments. -/
theorem total_change (M : Mom K C) (ps : List (Pk K D)) (hty : Typed ps) (c : C)
    (hA : M.A (bOsc M c) c ≠ 0) (hB : M.B (bOsc M c) c ≠ 0) :
    let A := M.A (bOsc M c) c
    let B := M.B (bOsc M c) c
    let g := gnu bin ps (bOsc M c) c
    (∑ m, expG bin M (gnu bin ps) ps c m) - ∑ m, nowG bin M ps c m =
      if A < B then partA g - A / (B + SMALL) * partB g else -(partB g) + B / (A + SMALL) * partA g := by
  simp only
  rw [← Finset.sum_sub_distrib]
  have hterm : ∀ m, expG bin M (gnu bin ps) ps c m - nowG bin M ps c m =
      if M.A (bOsc M c) c < M.B (bOsc M c) c then
        (if gnu bin ps (bOsc M c) c m < 0 then |gnu bin ps (bOsc M c) c m| else 0) -
          M.A (bOsc M c) c / (M.B (bOsc M c) c + SMALL) * (if 0 < gnu bin ps (bOsc M c) c m then |gnu bin ps (bOsc M c) c m| else 0)
      else -(if 0 < gnu bin ps (bOsc M c) c m then |gnu bin ps (bOsc M c) c m| else 0) +
          M.B (bOsc M c) c / (M.A (bOsc M c) c + SMALL) * (if gnu bin ps (bOsc M c) c m < 0 then |gnu bin ps (bOsc M c) c m| else 0) := by
    intro m
    obtain ⟨h1, h2, h3, _, _⟩ := C52_bins bin M ps hty c m hA hB
    have hg := gnu_zero_or bin ps (bOsc M c) c m
    simp only at h1 h2 h3
    unfold nowG
    rcases lt_trichotomy (gnu bin ps (bOsc M c) c m) 0 with hn | hz | hp
    · have hG := hg.resolve_left hn.ne
      rw [if_pos hn, if_neg hn.not_gt, ← hG, abs_of_neg hn]
      by_cases hab : M.A (bOsc M c) c < M.B (bOsc M c) c
      · rw [if_pos hab, h1 (Or.inl ⟨hab, hn⟩)]; ring
      · rw [if_neg hab, h2 hn.ne (by
          rintro (⟨a, _⟩ | ⟨_, b⟩)
          · exact hab a
          · exact absurd b hn.not_gt), min_eq_right (not_lt.1 hab), max_eq_left (not_lt.1 hab)]
        ring
    · obtain ⟨a0, a1, a2, a3⟩ := h3 hz
      rw [hz]
      simp only [lt_irrefl, if_false]
      have : expG bin M (gnu bin ps) ps c m = gtemp fun ty => angles bin ps (bOsc M c) c ty m := by
        simp only [expG, gtemp]
        rw [a0, a1, a2, a3]
      rw [this]
      split_ifs <;> ring
    · have hG := hg.resolve_left hp.ne'
      rw [if_neg hp.not_gt, if_pos hp, ← hG, abs_of_pos hp]
      by_cases hab : M.A (bOsc M c) c < M.B (bOsc M c) c
      · rw [if_pos hab, h2 hp.ne' (by
          rintro (⟨_, b⟩ | ⟨a, _⟩)
          · exact absurd b hp.not_gt
          · exact absurd hab a.not_gt), min_eq_left hab.le, max_eq_right hab.le]
        ring
      · rw [if_neg hab, h1 (Or.inr ⟨not_lt.1 hab, hp⟩)]; ring
  rw [Finset.sum_congr rfl fun m _ => hterm m]
  unfold partA partB
  split_ifs
  · rw [Finset.sum_sub_distrib, Finset.mul_sum]
  · rw [Finset.sum_add_distrib, Finset.mul_sum, Finset.sum_neg_distrib]

/-- **C52 (total; partial).** With moments computed from the present packets alone, the angle-integrated electron-minus-x lepton number is
conserved in expectation up to exactly `shallow · SMALL / (deep + SMALL)`, which is less than `SMALL`. Missing: exactness (`C52_full_false`),
and the moments in the code are not those of the present packets (`C53_full_false`, `C52_stale_false`). -/
theorem C52_total_partial (ps : List (Pk K D)) (hty : Typed ps) (c : C) :
    let M := accumulate bin Mom.zero ps
    let A := M.A (bOsc M c) c
    let B := M.B (bOsc M c) c
    A ≠ 0 → B ≠ 0 →
      |(∑ m, expG bin M (gnu bin ps) ps c m) - ∑ m, nowG bin M ps c m| = min A B * SMALL / (max A B + SMALL) ∧
        |(∑ m, expG bin M (gnu bin ps) ps c m) - ∑ m, nowG bin M ps c m| < SMALL := by
  intro M A B hA hB
  have h := total_change bin M ps hty c hA hB
  have eA : partA (gnu bin ps (bOsc M c) c) = A := by simp [A, M, accumulate, Mom.zero]
  have eB : partB (gnu bin ps (bOsc M c) c) = B := by simp [B, M, accumulate, Mom.zero]
  have hA0 : 0 < A := lt_of_le_of_ne (eA ▸ partA_nonneg _) hA.symm
  have hB0 : 0 < B := lt_of_le_of_ne (eB ▸ partB_nonneg _) hB.symm
  have hS := SMALL_pos (K := K)
  simp only at h
  rw [eA, eB] at h
  have key : |(∑ m, expG bin M (gnu bin ps) ps c m) - ∑ m, nowG bin M ps c m| = min A B * SMALL / (max A B + SMALL) := by
    rw [h]
    change |if A < B then A - A / (B + SMALL) * B else -B + B / (A + SMALL) * A| = _
    split_ifs with hab
    · rw [min_eq_left hab.le, max_eq_right hab.le]
      have : A - A / (B + SMALL) * B = A * SMALL / (B + SMALL) := by field_simp; ring
      rw [this, abs_of_nonneg (by positivity)]
    · have hab' := not_lt.1 hab
      rw [min_eq_right hab', max_eq_left hab']
      have : -B + B / (A + SMALL) * A = -(B * SMALL / (A + SMALL)) := by field_simp; ring
      rw [this, abs_neg, abs_of_nonneg (by positivity)]
  refine ⟨key, ?_⟩
  rw [key, div_lt_iff₀ (by positivity)]
  have : min A B ≤ max A B := min_le_max
  nlinarith

/-- **C52 (no crossing).** Without one of the two regions nothing is converted. -/
theorem C52_no_crossing (n : ℕ) (force : Bool) (M : Mom K C) (g : Bool → C → ι → K) (ps : List (Pk K D)) (us : ℕ → K)
    (h : ∀ b c, M.A b c = 0 ∨ M.B b c = 0) : oscillate bin n force M g ps us = ps := by
  have h1 : ∀ p u, oscOne bin n force M g p u = p := by
    intro p u
    unfold oscOne
    split_ifs with h0
    · rfl
    · simp only
      have : eligible force (M.A (bOsc M (bin p.rest).cell) (bin p.rest).cell) (M.B (bOsc M (bin p.rest).cell) (bin p.rest).cell)
          (g (bOsc M (bin p.rest).cell) (bin p.rest).cell ((bin p.rest).mu (bOsc M (bin p.rest).cell))) = false := by
        unfold eligible
        rcases h (bOsc M (bin p.rest).cell) (bin p.rest).cell with h | h <;> simp [h]
      rw [this]
      simp
  unfold oscillate
  apply List.ext_getElem?
  intro k
  rw [List.getElem?_mapIdx]
  cases ps[k]? with
  | none => rfl
  | some p => simp [h1]

/-- **C52 (direction).** Of the two directions, the one with the larger imbalance decides: when it has no crossing, the packet is not
converted, whatever the other direction shows. -/
theorem C52_direction (n : ℕ) (force : Bool) (M : Mom K C) (g : Bool → C → ι → K) (p : Pk K D) (u : K) (b : Bool)
    (hb : |M.B (!b) (bin p.rest).cell - M.A (!b) (bin p.rest).cell| < |M.B b (bin p.rest).cell - M.A b (bin p.rest).cell|)
    (h : M.A b (bin p.rest).cell = 0 ∨ M.B b (bin p.rest).cell = 0) : oscOne bin n force M g p u = p := by
  have e : bOsc M (bin p.rest).cell = b := by
    unfold bOsc
    cases b with
    | false => exact decide_eq_false (not_lt.2 hb.le)
    | true => exact decide_eq_true hb
  unfold oscOne
  simp only [e]
  by_cases h0 : isTracer p = true
  · rw [if_pos h0]
  · have : eligible force (M.A b (bin p.rest).cell) (M.B b (bin p.rest).cell) (g b (bin p.rest).cell ((bin p.rest).mu b)) = false := by
      unfold eligible
      rcases h with h | h <;> simp [h]
    rw [if_neg h0, this]
    simp

/-- The moments after a history of accumulations. -/
def runAcc (hist : List (List (Pk K D))) : Mom K C := hist.foldl (accumulate bin) Mom.zero

/-- **C53 (what they are).** The moments at a step are the sums over all calls since the start of the program. -/
theorem C53_history (hist : List (List (Pk K D))) (b : Bool) (c : C) :
    (runAcc bin hist).A b c = (hist.map fun ps => partA (gnu bin ps b c)).sum ∧
      (runAcc bin hist).B b c = (hist.map fun ps => partB (gnu bin ps b c)).sum := by
  have gen : ∀ (M : Mom K C), (hist.foldl (accumulate bin) M).A b c = M.A b c + (hist.map fun ps => partA (gnu bin ps b c)).sum ∧
      (hist.foldl (accumulate bin) M).B b c = M.B b c + (hist.map fun ps => partB (gnu bin ps b c)).sum := by
    induction hist with
    | nil => intro M; simp
    | cons ps hist ih =>
      intro M
      obtain ⟨a, b'⟩ := ih (accumulate bin M ps)
      simp only [List.foldl_cons, List.map_cons, List.sum_cons]
      rw [a, b']
      simp only [accumulate]
      constructor <;> ring
  have := gen Mom.zero
  simpa [runAcc, Mom.zero] using this

/-- **C53 (partial).** They reflect the current packets when the calls before contributed nothing. Missing: any other history
(`C53_full_false`). -/
theorem C53_fresh_partial (hist : List (List (Pk K D))) (ps : List (Pk K D)) (b : Bool) (c : C)
    (h : ∀ qs ∈ hist, ∀ m, gnu bin qs b c m = 0) :
    (runAcc bin (hist ++ [ps])).A b c = partA (gnu bin ps b c) ∧ (runAcc bin (hist ++ [ps])).B b c = partB (gnu bin ps b c) := by
  obtain ⟨a, b'⟩ := C53_history bin (hist ++ [ps]) b c
  rw [a, b']
  simp only [List.map_append, List.sum_append, List.map_cons, List.map_nil, List.sum_cons, List.sum_nil, add_zero]
  have z1 : (hist.map fun ps => partA (gnu bin ps b c)).sum = 0 := by
    apply List.sum_eq_zero
    intro x hx
    obtain ⟨qs, hq, rfl⟩ := List.mem_map.1 hx
    simp [partA, h qs hq]
  have z2 : (hist.map fun ps => partB (gnu bin ps b c)).sum = 0 := by
    apply List.sum_eq_zero
    intro x hx
    obtain ⟨qs, hq, rfl⟩ := List.mem_map.1 hx
    simp [partB, h qs hq]
  rw [z1, z2]
  simp

end

/-! Concrete packets: one location, two angle bins, the same for both directions. -/

def exBin (d : Fin 2) : Bins Unit (Fin 2) := ⟨(), fun _ => d⟩

/-- Four electron neutrinos in the first angle bin. -/
def onlyNu : List (Pk ℚ (Fin 2)) := List.replicate 4 ⟨0, 1, 0, false⟩

/-- The same and three electron antineutrinos in the second. -/
def crossing : List (Pk ℚ (Fin 2)) := onlyNu ++ List.replicate 3 ⟨1, 1, 1, false⟩

theorem crossing_moments : (accumulate exBin Mom.zero crossing).A false () = 3 ∧ (accumulate exBin Mom.zero crossing).B false () = 4 ∧
    bOsc (accumulate exBin Mom.zero crossing) () = false := by decide +kernel

theorem typed_crossing : Typed crossing := by
  intro p hp
  simp only [crossing, onlyNu, List.mem_append, List.mem_replicate] at hp
  rcases hp with ⟨_, rfl⟩ | ⟨_, rfl⟩ <;> norm_num

theorem typed_onlyNu : Typed onlyNu := by
  intro p hp
  simp only [onlyNu, List.mem_replicate] at hp
  rw [hp.2]; norm_num

/-- The full claim on the total: exact conservation with fresh moments. -/
def FullTotal : Prop := ∀ ps : List (Pk ℚ (Fin 2)), Typed ps →
  let M := accumulate exBin Mom.zero ps
  ∑ m, expG exBin M (gnu exBin ps) ps () m = ∑ m, nowG exBin M ps () m

/-- **C52 (negation, rounding guard).** Conservation is not exact: the guard against division by zero leaves a remainder. -/
theorem C52_full_false : ¬ FullTotal := by
  intro h
  have h1 := h crossing typed_crossing
  obtain ⟨hA, hB, hb⟩ := crossing_moments
  have h2 := (C52_total_partial exBin crossing typed_crossing () (by rw [hb, hA]; norm_num) (by rw [hb, hB]; norm_num)).1
  simp only at h1
  rw [h1, sub_self, abs_zero, hb, hA, hB] at h2
  norm_num [SMALL] at h2

/-- **C52 (negation, stale moments).** With the moments of an earlier step the lepton number is not even approximately conserved: of four
more than one and a half are lost in expectation. -/
theorem C52_stale_false :
    let M := accumulate exBin (accumulate exBin Mom.zero crossing) onlyNu
    (∑ m, expG exBin M (gnu exBin onlyNu) onlyNu () m) - ∑ m, nowG exBin M onlyNu () m < -(149 / 100) := by
  intro M
  have hA : M.A (bOsc M ()) () = 3 := by decide +kernel
  have hB : M.B (bOsc M ()) () = 8 := by decide +kernel
  have h := total_change exBin M onlyNu typed_onlyNu () (by rw [hA]; norm_num) (by rw [hB]; norm_num)
  have eA : partA (gnu exBin onlyNu (bOsc M ()) ()) = 0 := by decide +kernel
  have eB : partB (gnu exBin onlyNu (bOsc M ()) ()) = 4 := by decide +kernel
  simp only at h
  rw [h, hA, hB, eA, eB, if_pos (by norm_num)]
  norm_num [SMALL]

/-- The full claim. -/
def FullFresh : Prop := ∀ (hist hist' : List (List (Pk ℚ (Fin 2)))) (ps : List (Pk ℚ (Fin 2))),
  (runAcc exBin (hist ++ [ps])).A = (runAcc exBin (hist' ++ [ps])).A

/-- **C53 (negation).** The moments of equal packets differ with the history. -/
theorem C53_full_false : ¬ FullFresh := by
  intro h
  have h1 := congrFun (congrFun (h [] [crossing] onlyNu) false) ()
  revert h1
  decide +kernel

/-- **C53 (consequence).** Packets without any crossing are converted because of a crossing in an earlier step; computed from the current
packets alone nothing would be converted, whatever the random numbers. -/
theorem C53_spurious_conversion :
    ((step exBin 4 false true (accumulate exBin Mom.zero crossing) onlyNu fun _ => 0).2.map Pk.type = [2, 2, 2, 2]) ∧
      ∀ us, (step exBin 4 false true Mom.zero onlyNu us).2 = onlyNu := by
  refine ⟨by decide +kernel, fun us => ?_⟩
  have : (step exBin 4 false true Mom.zero onlyNu us).2 =
      oscillate exBin 4 false (accumulate exBin Mom.zero onlyNu) (gnu exBin onlyNu) onlyNu us := rfl
  rw [this]
  apply C52_no_crossing
  intro b c
  left
  cases b <;> cases c <;> decide +kernel

/-- **C88 (negation).** Writing a dump changes the evolution: it adds to the moments used by later conversions. -/
theorem C88_full_false : ¬ ∀ (M : Mom ℚ Unit) (ps qs : List (Pk ℚ (Fin 2))) (us : ℕ → ℚ),
    ((step exBin 4 false true (dump exBin M ps) qs us).2.map Pk.type) = (step exBin 4 false true M qs us).2.map Pk.type := by
  intro h
  have h1 := h Mom.zero crossing onlyNu fun _ => 0
  revert h1
  decide +kernel

section

variable {D C ι : Type*} [DecidableEq C] [DecidableEq ι] [Fintype ι] (bin : D → Bins C ι)

/-- **C88 (partial).** Packets evolve alike with and without dumps as long as conversion is inactive, and dumps of packets without
significant differences change nothing. Missing: all other runs (`C88_full_false`). -/
theorem C88_partial (n : ℕ) (force : Bool) (M : Mom K C) (ps qs : List (Pk K D)) (us : ℕ → K) :
    (step bin n force false (dump bin M ps) qs us).2 = (step bin n force false M qs us).2 ∧
      ((∀ b c m, gnu bin ps b c m = 0) → dump bin M ps = M) := by
  refine ⟨rfl, fun h => ?_⟩
  cases M
  simp [dump, accumulate, partA, partB, h]

/-- **C86 (all weight).** The distribution of each direction contains every radiation packet exactly once: summed over locations, angles and
types it is the total weight. -/
theorem C86_all_weight [Fintype C] (ps : List (Pk K D)) (b : Bool) :
    ∑ c : C, ∑ m : ι, ((ps.filter (hits bin b c m)).map Pk.w).sum = ((ps.filter fun p => !isTracer p).map Pk.w).sum ∧
      ∑ c : C, ∑ m : ι, count (K := K) bin ps b c m = ((ps.filter fun p => !isTracer p).length : K) := by
  unfold count
  induction ps with
  | nil => simp
  | cons p ps ih =>
    obtain ⟨i1, i2⟩ := ih
    by_cases ht : isTracer p = true
    · have hh : ∀ c m, hits bin b c m p = false := by intro c m; simp [hits, ht]
      constructor
      · rw [List.filter_cons_of_neg (by simp [ht]), ← i1]
        refine Finset.sum_congr rfl fun c _ => Finset.sum_congr rfl fun m _ => ?_
        rw [List.filter_cons_of_neg (by simp [hh])]
      · rw [List.filter_cons_of_neg (by simp [ht]), ← i2]
        refine Finset.sum_congr rfl fun c _ => Finset.sum_congr rfl fun m _ => ?_
        rw [List.filter_cons_of_neg (by simp [hh])]
    · have ht' : isTracer p = false := by simpa using ht
      have hh : ∀ c m, hits bin b c m p = (decide ((bin p.rest).cell = c) && decide ((bin p.rest).mu b = m)) := by
        intro c m; simp [hits, ht']
      have one : ∀ x : K, ∑ c : C, ∑ m : ι, (if hits bin b c m p = true then x else 0) = x := by
        intro x
        rw [Finset.sum_eq_single (bin p.rest).cell, Finset.sum_eq_single ((bin p.rest).mu b)]
        · simp [hh]
        · intro m _ hm; simp [hh, Ne.symm hm]
        · intro h; exact absurd (Finset.mem_univ _) h
        · intro c _ hc; simp [hh, Ne.symm hc]
        · intro h; exact absurd (Finset.mem_univ _) h
      constructor
      · rw [List.filter_cons_of_pos (by simp [ht']), List.map_cons, List.sum_cons, ← i1, ← one p.w, ← Finset.sum_add_distrib]
        refine Finset.sum_congr rfl fun c _ => ?_
        rw [← Finset.sum_add_distrib]
        refine Finset.sum_congr rfl fun m _ => ?_
        rw [List.filter_cons]
        split_ifs <;> simp
      · rw [List.filter_cons_of_pos (by simp [ht']), List.length_cons, Nat.cast_succ, ← i2, add_comm, ← one 1, ← Finset.sum_add_distrib]
        refine Finset.sum_congr rfl fun c _ => ?_
        rw [← Finset.sum_add_distrib]
        refine Finset.sum_congr rfl fun m _ => ?_
        rw [List.filter_cons]
        split_ifs
        · rw [List.length_cons]; push_cast; ring
        · simp

end

/-- **C86 (bin exists).** Every value falls into an existing bin; inside the binned interval it is the bin containing the value, the upper
end belonging to the last one. -/
theorem C86_bin {F : Type*} [Field F] [LinearOrder F] [IsStrictOrderedRing F] [FloorRing F] (n : ℕ) (hn : 0 < n) (x start dx : F)
    (hdx : 0 < dx) :
    0 ≤ clampBin n x start dx ∧ clampBin n x start dx < n ∧
      (start ≤ x → x < start + n * dx →
        start + (clampBin n x start dx : F) * dx ≤ x ∧ x < start + ((clampBin n x start dx : F) + 1) * dx) := by
  have hn1 : (1 : F) ≤ n := by exact_mod_cast hn
  refine ⟨?_, ?_, fun h0 h1 => ?_⟩
  · unfold clampBin
    exact Int.floor_nonneg.2 (le_max_left _ _)
  · unfold clampBin
    rw [Int.floor_lt]
    push_cast
    exact max_lt (by linarith) (lt_of_le_of_lt (min_le_left _ _) (by linarith))
  · have hy0 : 0 ≤ (x - start) / dx := div_nonneg (by linarith) hdx.le
    have hy1 : (x - start) / dx < n := by rw [div_lt_iff₀ hdx]; linarith
    have hxy : x = start + (x - start) / dx * dx := by field_simp; ring
    unfold clampBin
    generalize (x - start) / dx = y at *
    rcases le_total y ((n : F) - 1) with h | h
    · rw [min_eq_right h, max_eq_right hy0]
      have f1 := Int.floor_le y
      have f2 := Int.lt_floor_add_one y
      constructor
      · rw [hxy]; linarith [mul_le_mul_of_nonneg_right f1 hdx.le]
      · rw [hxy]; linarith [mul_lt_mul_of_pos_right f2 hdx]
    · rw [min_eq_left h, max_eq_right (by linarith)]
      have : ⌊(n : F) - 1⌋ = (n : ℤ) - 1 := by
        rw [Int.floor_eq_iff]; push_cast; exact ⟨le_rfl, by linarith⟩
      rw [this]
      push_cast
      constructor
      · rw [hxy]; linarith [mul_le_mul_of_nonneg_right h hdx.le]
      · rw [hxy, sub_add_cancel]; linarith [mul_lt_mul_of_pos_right hy1 hdx]

example : clampBin 4 (1 : ℚ) (-1) (1/2) = 3 ∧ clampBin 4 (0 : ℚ) (-1) (1/2) = 2 ∧ clampBin 4 (-3 : ℚ) (-1) (1/2) = 0 := by decide +kernel

/-- Spatial length squared of a vector. -/
def lengthSq (gcov : Fin 3 → Fin 3 → K) (v : Fin 3 → K) : K := ∑ mu, ∑ nu, gcov mu nu * v mu * v nu

/-- **C87 (partial).** For a diagonal spatial metric with nonnegative entries the computed length is the length. Missing: other metrics
(`C87_full_false`). -/
theorem C87_partial (gcov : Fin 3 → Fin 3 → K) (v : Fin 3 → K) (hd : ∀ mu nu, mu ≠ nu → gcov mu nu = 0) (hp : ∀ mu, 0 ≤ gcov mu mu) :
    knormSq gcov v = lengthSq gcov v := by
  unfold knormSq lengthSq
  refine Finset.sum_congr rfl fun mu _ => Finset.sum_congr rfl fun nu _ => ?_
  by_cases h : mu = nu
  · subst h
    rw [mul_assoc, abs_of_nonneg (mul_nonneg (hp mu) (mul_self_nonneg _))]
  · rw [hd mu nu h]; simp

/-- A positive metric with an off-diagonal entry. -/
def offDiag (mu nu : Fin 3) : ℚ := if mu = nu then 1 else if mu = 1 ∨ nu = 1 then 0 else -1 / 2

/-- **C87 (negation).** With an off-diagonal entry, as in Kerr-Schild coordinates with spin, the computed length differs: a packet moving
along the first direction, whose cosine with it is one, is recorded with a smaller one. -/
theorem C87_full_false : ¬ ∀ (gcov : Fin 3 → Fin 3 → ℚ) (v : Fin 3 → ℚ), (∀ mu nu, gcov mu nu = gcov nu mu) →
    (∀ u : Fin 3 → ℚ, u ≠ 0 → 0 < lengthSq gcov u) → knormSq gcov v = lengthSq gcov v := by
  intro h
  have h1 := h offDiag ![1, 0, 0] (by intro mu nu; unfold offDiag; fin_cases mu <;> fin_cases nu <;> rfl) (by
    intro u hu
    have e : lengthSq offDiag u = (u 0 - u 2 / 2) ^ 2 + u 1 ^ 2 + 3 / 4 * u 2 ^ 2 := by
      simp [lengthSq, Fin.sum_univ_three, offDiag]; ring
    rw [e]
    by_contra hn
    have a := sq_nonneg (u 0 - u 2 / 2)
    have b := sq_nonneg (u 1)
    have c := sq_nonneg (u 2)
    have c0 : u 2 = 0 := pow_eq_zero_iff (two_ne_zero) |>.1 (by linarith)
    have b0 : u 1 = 0 := pow_eq_zero_iff (two_ne_zero) |>.1 (by linarith)
    have a0 : u 0 - u 2 / 2 = 0 := pow_eq_zero_iff (two_ne_zero) |>.1 (by linarith)
    apply hu
    funext i
    fin_cases i
    · have : u 0 = 0 := by rw [c0] at a0; linarith
      exact this
    · exact b0
    · exact c0)
  revert h1
  decide +kernel

/-- **C89 (partial).** The moments of the first direction are written where they belong. Missing: the second direction
(`C89_second`). -/
theorem C89_partial (n : ℕ) (mem : ℕ → K) (m i : ℕ) : fileMoment n mem 0 m i = mem (memMoment n 0 m i) := by
  simp [fileMoment, memMoment]

/-- **C89 (negation).** In the place of the second direction's moments the file has the first direction's difference and the second
direction's first moment. -/
theorem C89_second (n : ℕ) (mem : ℕ → K) (i : ℕ) :
    fileMoment n mem 1 0 i = mem (memMoment n 0 2 i) ∧ fileMoment n mem 1 1 i = mem (memMoment n 1 0 i) := by
  constructor <;> simp [fileMoment, memMoment]

theorem C89_full_false : ¬ ∀ (n : ℕ) (mem : ℕ → ℚ) (b m i : ℕ), b < 2 → m < 2 → i < n → fileMoment n mem b m i = mem (memMoment n b m i) := by
  intro h
  have := h 1 (fun k => k) 1 0 0 (by norm_num) (by norm_num) (by norm_num)
  norm_num [fileMoment, memMoment] at this

end Nubhlight.Oscillate
