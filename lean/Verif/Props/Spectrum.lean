import Verif.Common
import Verif.Model.Spectrum
import Verif.Props.Coord
import Mathlib.Algebra.BigOperators.Group.Finset.Piecewise
import Mathlib.Tactic.FieldSimp
import Mathlib.Tactic.Positivity

set_option autoImplicit false

/-!
# C62, C63, C91: recorded spectra
-/

set_option linter.unusedSectionVars false

namespace Nubhlight.Spectrum

/-! ## C62 -/

section

variable {K : Type*} [AddCommMonoid K]

/-- What was recorded on the `n` ranks since the last reset; `acc` is what was there before the list. -/
def recorded (n : ℕ) : List (Ev K) → K → K
  | [], acc => acc
  | .record r v :: l, acc => recorded n l (if r < n then acc + v else acc)
  | .reduce :: l, acc => recorded n l acc
  | .reset :: l, _ => recorded n l 0

theorem sum_update (n r : ℕ) (f : ℕ → K) (v : K) :
    ∑ i ∈ Finset.range n, Function.update f r (f r + v) i = (∑ i ∈ Finset.range n, f i) + if r < n then v else 0 := by
  split_ifs with h
  · have hr : r ∈ Finset.range n := Finset.mem_range.2 h
    rw [Finset.sum_update_of_mem hr, ← Finset.add_sum_erase _ f hr, Finset.sdiff_singleton_eq_erase]
    abel
  · rw [add_zero]
    apply Finset.sum_congr rfl
    intro i hi
    rw [Function.update_of_ne]
    intro he
    rw [he] at hi
    exact h (Finset.mem_range.1 hi)

/-- Invariant: total as recorded; the buffers of the other ranks are zero. -/
theorem red_inv (n : ℕ) (hn : 0 < n) (l : List (Ev K)) : ∀ (s : Red K), (∀ r, r ≠ 0 → s.buf r = 0) →
    (∑ r ∈ Finset.range n, (l.foldl (ev n) s).nuLnu r = recorded n l (∑ r ∈ Finset.range n, s.nuLnu r)) ∧
      ∀ r, r ≠ 0 → (l.foldl (ev n) s).buf r = 0 := by
  induction l with
  | nil => intro s h; exact ⟨rfl, h⟩
  | cons e l ih =>
    intro s h
    rw [List.foldl_cons]
    cases e with
    | record r v =>
      obtain ⟨h1, h2⟩ := ih (ev n s (.record r v)) h
      refine ⟨?_, h2⟩
      rw [h1, recorded]
      congr 1
      simp only [ev]
      rw [sum_update]
      split_ifs
      · rfl
      · rw [add_zero]
    | reduce =>
      have hb : ∀ r, r ≠ 0 → (ev n s .reduce).buf r = 0 := by
        intro r hr
        simp only [ev, reduce]
        rw [Function.update_of_ne hr]
        exact h r hr
      obtain ⟨h1, h2⟩ := ih (ev n s .reduce) hb
      refine ⟨?_, h2⟩
      rw [h1, recorded]
      congr 1
      rw [Finset.sum_eq_single 0]
      · simp [ev, reduce]
      · intro r _ hr
        simp only [ev, reduce]
        rw [Function.update_of_ne hr]
        exact h r hr
      · intro h0
        exact absurd (Finset.mem_range.2 hn) h0
    | reset =>
      obtain ⟨h1, h2⟩ := ih (ev n s .reset) h
      refine ⟨?_, h2⟩
      rw [h1, recorded]
      congr 1
      simp [ev]

/-- **C62 (no double counting).** After any history of recordings, reductions and resets the total over ranks is what was recorded since the last
reset. -/
theorem C62_total (n : ℕ) (hn : 0 < n) (l : List (Ev K)) : ∑ r ∈ Finset.range n, (runEv n l).nuLnu r = recorded n l 0 := by
  have := (red_inv n hn l initial fun _ _ => rfl).1
  simpa [runEv, initial] using this

/-- **C62 (output).** The value that rank 0 writes right after a reduction is what was recorded since the last reset, however many reductions came before; no
other rank keeps anything. -/
theorem C62_output (n : ℕ) (hn : 0 < n) (l : List (Ev K)) :
    (runEv n (l ++ [.reduce])).nuLnu 0 = recorded n l 0 ∧ ∀ r, r ≠ 0 → (runEv n (l ++ [.reduce])).nuLnu r = 0 := by
  have h := C62_total n hn l
  have hb := (red_inv n hn l (initial : Red K) fun _ _ => rfl).2
  unfold runEv at h ⊢
  rw [List.foldl_append]
  constructor
  · rw [← h]
    simp [ev, reduce]
  · intro r hr
    simp only [List.foldl_cons, List.foldl_nil, ev, reduce]
    rw [Function.update_of_ne hr]
    exact hb r hr

end

/-- Two reductions with recordings on two ranks between: nothing is counted twice. -/
example : (runEv 2 [Ev.record 0 3, .record 1 4, .reduce, .record 1 5, .reduce] : Red ℕ).nuLnu 0 = 12 := by decide

/-! ## C63 -/

theorem cInt_range (x : ℝ) (n : ℕ) (h0 : -1 < x) (h1 : x < n) (hn : 0 < n) : 0 ≤ cInt x ∧ cInt x < n := by
  unfold cInt
  split_ifs with h
  · exact ⟨Int.floor_nonneg.2 h, Int.floor_lt.2 (by exact_mod_cast h1)⟩
  · push Not at h
    have : ⌈x⌉ = 0 := Int.ceil_eq_zero_iff.2 ⟨by linarith, h.le⟩
    rw [this]
    exact ⟨le_rfl, by exact_mod_cast hn⟩

theorem cInt_lt_of (x : ℝ) (n : ℕ) (hn : 0 < n) (h0 : 0 ≤ cInt x) (h1 : cInt x < n) : -1 < x ∧ x < n := by
  unfold cInt at h0 h1
  split_ifs at h0 h1 with h
  · exact ⟨by linarith, by exact_mod_cast Int.floor_lt.1 h1⟩
  · push Not at h
    have h2 : (-1 : ℤ) < ⌈x⌉ := by omega
    have := Int.lt_ceil.1 h2
    push_cast at this
    have hn' : (0 : ℝ) < n := by exact_mod_cast hn
    exact ⟨this, by linarith⟩

theorem fmod_nonneg (x y : ℝ) (hx : 0 ≤ x) (hy : 0 < y) : 0 ≤ fmod x y ∧ fmod x y < y := by
  have hd : 0 ≤ x / y := div_nonneg hx hy.le
  unfold fmod cInt
  rw [if_pos hd]
  have h1 := Int.floor_le (x / y)
  have h2 := Int.lt_floor_add_one (x / y)
  rw [le_div_iff₀ hy] at h1
  rw [div_lt_iff₀ hy] at h2
  constructor <;> nlinarith

/-- Between one turn below zero and zero the remainder is the number itself. -/
theorem fmod_small_neg (x y : ℝ) (hx : x < 0) (hy : -y < x) : fmod x y = x := by
  have hy0 : 0 < y := by linarith
  have hd : x / y < 0 := div_neg_of_neg_of_pos hx hy0
  have hd1 : -1 < x / y := by rw [lt_div_iff₀ hy0]; linarith
  unfold fmod cInt
  rw [if_neg (not_le.2 hd)]
  have : ⌈x / y⌉ = 0 := Int.ceil_eq_zero_iff.2 ⟨hd1, hd.le⟩
  rw [this]
  simp

theorem angleBins_range (nth nphi : ℕ) (hn : 0 < nth) (hp : 0 < nphi) (th X3 : ℝ) (h0 : -(Real.pi / nth) < th) (h1 : th < Real.pi)
    (h2 : -(2 * Real.pi / nphi) < X3) :
    (0 ≤ (angleBins nth nphi th X3).1 ∧ (angleBins nth nphi th X3).1 < nth) ∧
      (0 ≤ (angleBins nth nphi th X3).2 ∧ (angleBins nth nphi th X3).2 < nphi) := by
  have hpi := Real.pi_pos
  have hn' : (0 : ℝ) < nth := by exact_mod_cast hn
  have hp' : (0 : ℝ) < nphi := by exact_mod_cast hp
  have hp1 : (1 : ℝ) ≤ nphi := by exact_mod_cast hp
  constructor
  · apply cInt_range _ _ _ _ hn
    · rw [lt_div_iff₀ (by positivity)]; linarith
    · rw [div_lt_iff₀ (by positivity)]
      have : (nth : ℝ) * (Real.pi / nth) = Real.pi := by field_simp
      rw [this]; exact h1
  · simp only [angleBins]
    apply cInt_range _ _ _ _ hp
    · rw [lt_div_iff₀ (by positivity)]
      rcases le_or_gt 0 X3 with h | h
      · have := (fmod_nonneg X3 (2 * Real.pi) h (by positivity)).1
        have : 0 < 2 * Real.pi / (nphi : ℝ) := by positivity
        linarith
      · rw [fmod_small_neg X3 (2 * Real.pi) h]
        · linarith
        · have : 2 * Real.pi / (nphi : ℝ) ≤ 2 * Real.pi := div_le_self (by positivity) hp1
          linarith
    · rw [div_lt_iff₀ (by positivity)]
      have e : (nphi : ℝ) * (2 * Real.pi / nphi) = 2 * Real.pi := by field_simp
      rw [e]
      rcases le_or_gt 0 X3 with h | h
      · exact (fmod_nonneg X3 (2 * Real.pi) h (by positivity)).2
      · rw [fmod_small_neg X3 (2 * Real.pi) h]
        · linarith
        · have : 2 * Real.pi / (nphi : ℝ) ≤ 2 * Real.pi := div_le_self (by positivity) hp1
          linarith

/-- A usable configuration. -/
def Cfg.WF (c : Cfg) : Prop :=
  0 < c.nth ∧ 0 < c.nphi ∧ 0 < c.nnu ∧ c.lnumin < c.lnumax ∧ 0 < c.DT ∧ 0 < c.mec2 ∧ 0 < c.hpl ∧ (c.useTypes = false → c.n0 = c.maxns + 1)

theorem firstIdx_range (c : Cfg) (hc : c.WF) (t ns : ℤ) (ht : c.useTypes = true → 0 ≤ t ∧ t < c.n0) (hs : 0 ≤ ns) :
    0 ≤ firstIdx c t ns ∧ firstIdx c t ns < c.n0 := by
  unfold firstIdx
  cases h : c.useTypes with
  | true => simpa using ht h
  | false =>
    have := hc.2.2.2.2.2.2.2 h
    simp only [Bool.false_eq_true, if_false]
    constructor
    · exact le_min hs (by positivity)
    · rw [this]
      push_cast
      have := min_le_right ns (c.maxns : ℤ)
      omega

/-- **C63 (existing bin; partial).** A packet of positive energy that leaves with grid coordinate `X2` in `[0, 1)` and azimuth above minus one bin width is
recorded in an existing bin. Missing: packets that leave at or beyond the lower pole, those more than one azimuthal bin below zero and those of negative
energy (`C63_pole`, `C63_negative_azimuth`, `C63_bad_energy`, `C63_full_false`). -/
theorem C63_in_array_partial (c : Cfg) (hc : c.WF) (q : Coord.Par) (hq : q.WF) (eps X1 X2 : ℝ) (he : 0 < eps) (he1 : eps < 1)
    (hX : q.startx1 ≤ X1) (h0 : 0 ≤ X2) (h1 : X2 < 1) (p : Pkt) (hth : p.th = Coord.blTh q eps X1 X2)
    (hphi : -(2 * Real.pi / c.nphi) < p.X3) (hE : p.K0 < 0) (ht : c.useTypes = true → 0 ≤ p.type ∧ p.type < c.n0) (hs : 0 ≤ p.nscatt)
    (s : Arr × ℕ) : (record c p s).isSome := by
  obtain ⟨hn, hp, hnu, hl, hD, hm, hh, _⟩ := hc
  have hpi := Real.two_le_pi
  have hn' : (0 : ℝ) < c.nth := by exact_mod_cast hn
  have hb := (Coord.C78_bijective q hq X1 hX).mapsTo ⟨h0, h1.le⟩
  have hlt : Coord.thOf q X1 X2 < Real.pi := by
    have := Coord.C78_strictMono q hq X1 hX h1
    rwa [(Coord.C78_poles q hq X1).2.1] at this
  have hth01 : -(Real.pi / c.nth) < p.th ∧ p.th < Real.pi := by
    have hneg : -(Real.pi / (c.nth : ℝ)) < 0 := by
      have : 0 < Real.pi / (c.nth : ℝ) := by positivity
      linarith
    rw [hth]
    unfold Coord.blTh
    have h0' := hb.1
    generalize Coord.thOf q X1 X2 = th at h0' hlt
    unfold Coord.singFix
    simp only
    split_ifs <;> constructor <;> linarith
  unfold record
  split_ifs
  · rfl
  · have hnu' : 0 < -p.K0 * c.mec2 / c.hpl := by
      have : 0 < -p.K0 := by linarith
      positivity
    unfold nuBin
    simp only
    rw [if_pos hnu']
    simp only [Option.bind_some]
    split_ifs with hr
    · have hab := angleBins_range c.nth c.nphi hn hp p.th p.X3 hth01.1 hth01.2 hphi
      have hi := firstIdx_range c ⟨hn, hp, hnu, hl, hD, hm, hh, by assumption⟩ p.type p.nscatt ht hs
      unfold bump
      rw [if_pos]
      · rfl
      · unfold inArr
        rw [decide_eq_true_eq]
        exact ⟨hi, hab.1, hab.2, hr⟩
    · rfl

/-- The frequency of a packet falls into a bin: from one bin width below the lower end (`C63_below_range`) to the upper end. -/
def Counted (c : Cfg) (p : Pkt) : Prop :=
  p.isTracer = false ∧ c.lnumin - dlnu c < Real.log (-p.K0 * c.mec2 / c.hpl) ∧ Real.log (-p.K0 * c.mec2 / c.hpl) < c.lnumax

theorem dlnu_pos (c : Cfg) (hc : c.WF) : 0 < dlnu c := by
  obtain ⟨_, _, hnu, hl, _⟩ := hc
  have : (0 : ℝ) < c.nnu := by exact_mod_cast hnu
  unfold dlnu
  have : 0 < c.lnumax - c.lnumin := by linarith
  positivity

theorem sum_bump (c : Cfg) (A A' : Arr) (b : ℤ × ℤ × ℤ × ℤ) (v : ℝ) (h : bump c A b v = some A') : sumArr c A' = sumArr c A + v := by
  unfold bump at h
  split_ifs at h with hb
  obtain rfl := Option.some.inj h
  unfold inArr at hb
  rw [decide_eq_true_eq] at hb
  unfold sumArr
  have hm : b ∈ Finset.Ico (0 : ℤ) c.n0 ×ˢ Finset.Ico (0 : ℤ) c.nth ×ˢ Finset.Ico (0 : ℤ) c.nphi ×ˢ Finset.Ico (0 : ℤ) c.nnu := by
    simp only [Finset.mem_product, Finset.mem_Ico]
    exact hb
  rw [← Finset.add_sum_erase _ _ hm, ← Finset.add_sum_erase _ A hm, if_pos rfl]
  rw [Finset.sum_congr rfl fun x hx => if_neg (Finset.ne_of_mem_erase hx)]
  ring

theorem bin_iff (c : Cfg) (hc : c.WF) (x : ℝ) :
    (0 ≤ cInt ((x - c.lnumin) / dlnu c) ∧ cInt ((x - c.lnumin) / dlnu c) < c.nnu) ↔ (c.lnumin - dlnu c < x ∧ x < c.lnumax) := by
  have hd := dlnu_pos c hc
  have hnu := hc.2.2.1
  have hnu' : (0 : ℝ) < c.nnu := by exact_mod_cast hnu
  have e : (c.nnu : ℝ) * dlnu c = c.lnumax - c.lnumin := by unfold dlnu; field_simp
  have hiff : (-1 < (x - c.lnumin) / dlnu c ∧ (x - c.lnumin) / dlnu c < c.nnu) ↔ (c.lnumin - dlnu c < x ∧ x < c.lnumax) := by
    rw [lt_div_iff₀ hd, div_lt_iff₀ hd, e]
    constructor <;> rintro ⟨h1, h2⟩ <;> constructor <;> linarith
  rw [← hiff]
  exact ⟨fun h => cInt_lt_of _ _ hnu h.1 h.2, fun h => cInt_range _ _ h.1 h.2 hnu⟩

open Classical in
/-- **C63 (energy).** If all packets are recorded inside the array, the sum of the entries, times bin width and output interval, grows by exactly the total energy of the packets
whose frequency is counted, and the counter of recorded packets by their number. -/
theorem C63_energy (c : Cfg) (hc : c.WF) (l : List Pkt) : ∀ (s s' : Arr × ℕ), recordAll c l s = some s' →
    sumArr c s'.1 * (dlnu c * c.DT) = sumArr c s.1 * (dlnu c * c.DT) +
        ((l.filter fun p => decide (Counted c p)).map fun p => p.w * (-p.K0 * c.mec2)).sum ∧
      s'.2 = s.2 + (l.filter fun p => decide (Counted c p)).length := by
  have hd := dlnu_pos c hc
  have hD := hc.2.2.2.2.1
  induction l with
  | nil =>
    intro s s' h
    obtain rfl := Option.some.inj h
    simp
  | cons p l ih =>
    intro s s' h
    simp only [recordAll] at h
    obtain ⟨s1, h1, h2⟩ := Option.bind_eq_some_iff.1 h
    obtain ⟨e1, e2⟩ := ih s1 s' h2
    have key : (Counted c p → sumArr c s1.1 * (dlnu c * c.DT) = sumArr c s.1 * (dlnu c * c.DT) + p.w * (-p.K0 * c.mec2) ∧ s1.2 = s.2 + 1) ∧
        (¬ Counted c p → s1 = s) := by
      unfold record at h1
      split_ifs at h1 with ht
      · obtain rfl := Option.some.inj h1
        exact ⟨fun hcp => by rw [hcp.1] at ht; simp at ht, fun _ => rfl⟩
      · obtain ⟨nub, hn, h3⟩ := Option.bind_eq_some_iff.1 h1
        unfold nuBin at hn
        simp only at hn
        split_ifs at hn with hpos
        obtain rfl := Option.some.inj hn
        simp only at h3
        split_ifs at h3 with hr'
        · have hr := (bin_iff c hc _).1 hr'
          obtain ⟨A, hA, rfl⟩ := Option.map_eq_some_iff.1 h3
          have hs := sum_bump c _ _ _ _ hA
          refine ⟨fun _ => ⟨?_, rfl⟩, fun hnc => absurd ⟨by simpa using ht, hr⟩ hnc⟩
          simp only
          rw [hs]
          field_simp
        · have hr := fun h => hr' ((bin_iff c hc _).2 h)
          obtain rfl := Option.some.inj h3
          exact ⟨fun hcp => absurd hcp.2 hr, fun _ => rfl⟩
    by_cases hcp : Counted c p
    · rw [List.filter_cons_of_pos (by simpa using hcp)]
      obtain ⟨k1, k2⟩ := key.1 hcp
      rw [e1, e2, k1, k2]
      simp only [List.map_cons, List.sum_cons, List.length_cons]
      constructor
      · ring
      · ring
    · rw [List.filter_cons_of_neg (by simpa using hcp)]
      rw [e1, e2, key.2 hcp]
      exact ⟨rfl, rfl⟩

/-- **C63 (below the range).** A frequency below the lower limit, by less than a bin width, is counted in the lowest bin. -/
theorem C63_below_range (c : Cfg) (hc : c.WF) (K0 : ℝ) (hpos : 0 < -K0 * c.mec2 / c.hpl)
    (h1 : c.lnumin - dlnu c < Real.log (-K0 * c.mec2 / c.hpl)) (h2 : Real.log (-K0 * c.mec2 / c.hpl) < c.lnumin) : nuBin c K0 = some 0 := by
  have hd := dlnu_pos c hc
  unfold nuBin cInt
  simp only
  rw [if_pos hpos, if_neg]
  · congr 1
    rw [Int.ceil_eq_zero_iff]
    constructor
    · rw [lt_div_iff₀ hd]; linarith
    · exact div_nonpos_of_nonpos_of_nonneg (by linarith) hd.le
  · rw [not_le]
    exact div_neg_of_neg_of_pos (by linarith) hd

/-- **C63 (negation, pole).** On the upper edge of the grid in `X2` the reported angle exceeds `π`: the polar bin does not exist. -/
theorem C63_pole (nth nphi : ℕ) (hn : 0 < nth) (th X3 : ℝ) (h : Real.pi ≤ th) : (nth : ℤ) ≤ (angleBins nth nphi th X3).1 := by
  have hpi := Real.pi_pos
  have hn' : (0 : ℝ) < nth := by exact_mod_cast hn
  simp only [angleBins, cInt]
  have h1 : (nth : ℝ) ≤ th / (Real.pi / nth) := by
    rw [le_div_iff₀ (by positivity)]
    have : (nth : ℝ) * (Real.pi / nth) = Real.pi := by field_simp
    rw [this]; exact h
  rw [if_pos (by linarith)]
  exact Int.le_floor.2 (by exact_mod_cast h1)

/-- **C63 (negation, azimuth).** An azimuth at least one bin width below zero (and less than a turn) gives a negative bin number. -/
theorem C63_negative_azimuth (nth nphi : ℕ) (hp : 0 < nphi) (th X3 : ℝ) (h : X3 ≤ -(2 * Real.pi / nphi)) (h1 : -(2 * Real.pi) < X3) :
    (angleBins nth nphi th X3).2 < 0 := by
  have hpi := Real.pi_pos
  have hp' : (0 : ℝ) < nphi := by exact_mod_cast hp
  have hd : 0 < 2 * Real.pi / (nphi : ℝ) := by positivity
  simp only [angleBins]
  rw [fmod_small_neg X3 (2 * Real.pi) (by linarith) h1]
  have h2 : X3 / (2 * Real.pi / nphi) ≤ -1 := by rw [div_le_iff₀ hd]; linarith
  unfold cInt
  rw [if_neg (by linarith)]
  have : ⌈X3 / (2 * Real.pi / nphi)⌉ ≤ -1 := Int.ceil_le.2 (by push_cast; exact h2)
  omega

/-- **C63 (branch cut).** An azimuth just below zero is recorded in the first azimuthal bin; the one a turn later, which is the same direction, in the
last. -/
theorem C63_branch_cut (nth nphi : ℕ) (hp : 1 < nphi) (th X3 : ℝ) (h0 : -(2 * Real.pi / nphi) < X3) (h1 : X3 < 0) :
    (angleBins nth nphi th X3).2 = 0 ∧ (angleBins nth nphi th (X3 + 2 * Real.pi)).2 = nphi - 1 := by
  have hpi := Real.pi_pos
  have hp' : (0 : ℝ) < nphi := by exact_mod_cast (by omega : 0 < nphi)
  have hp1 : (1 : ℝ) ≤ nphi := by exact_mod_cast hp.le
  have hd : 0 < 2 * Real.pi / (nphi : ℝ) := by positivity
  have hle : 2 * Real.pi / (nphi : ℝ) ≤ 2 * Real.pi := div_le_self (by positivity) hp1
  have e : (nphi : ℝ) * (2 * Real.pi / nphi) = 2 * Real.pi := by field_simp
  constructor
  · simp only [angleBins]
    rw [fmod_small_neg X3 _ h1 (by linarith)]
    unfold cInt
    rw [if_neg (not_le.2 (div_neg_of_neg_of_pos h1 hd))]
    rw [Int.ceil_eq_zero_iff]
    refine ⟨?_, (div_neg_of_neg_of_pos h1 hd).le⟩
    rw [lt_div_iff₀ hd]
    linarith
  · have hf : fmod (X3 + 2 * Real.pi) (2 * Real.pi) = X3 + 2 * Real.pi := by
      unfold fmod cInt
      have h2 : 0 ≤ (X3 + 2 * Real.pi) / (2 * Real.pi) := div_nonneg (by linarith) (by positivity)
      rw [if_pos h2]
      have : ⌊(X3 + 2 * Real.pi) / (2 * Real.pi)⌋ = 0 := by
        rw [Int.floor_eq_zero_iff]
        refine ⟨h2, ?_⟩
        rw [div_lt_iff₀ (by positivity)]
        linarith
      rw [this]
      simp
    simp only [angleBins]
    rw [hf]
    unfold cInt
    rw [if_pos (div_nonneg (by linarith) hd.le), Int.floor_eq_iff]
    push_cast
    constructor
    · rw [le_div_iff₀ hd]
      nlinarith
    · rw [div_lt_iff₀ hd]
      nlinarith

/-- **C63 (negation, energy).** A packet with positive `K_0` — which the boundary pass removes only after recording — has no frequency bin. -/
theorem C63_bad_energy (c : Cfg) (hc : c.WF) (p : Pkt) (ht : p.isTracer = false) (h : 0 ≤ p.K0) (s : Arr × ℕ) : record c p s = none := by
  obtain ⟨_, _, _, _, _, hm, hh, _⟩ := hc
  have : ¬ 0 < -p.K0 * c.mec2 / c.hpl := by
    rw [not_lt]
    apply div_nonpos_of_nonpos_of_nonneg _ hh.le
    nlinarith
  unfold record nuBin
  simp only
  rw [if_neg (by simp [ht]), if_neg this]
  rfl

/-- The full claim for `X2` and azimuth in their closed ranges. -/
def FullRecord : Prop := ∀ (c : Cfg) (_ : c.WF) (q : Coord.Par) (_ : q.WF) (eps X1 X2 : ℝ), 0 < eps → eps < 1 → q.startx1 ≤ X1 → 0 ≤ X2 → X2 ≤ 1 →
  ∀ p : Pkt, p.th = Coord.blTh q eps X1 X2 → 0 ≤ p.X3 → p.K0 < 0 → (c.useTypes = true → 0 ≤ p.type ∧ p.type < c.n0) → 0 ≤ p.nscatt →
    ∀ s : Arr × ℕ, (record c p s).isSome

/-- A configuration with one bin of each kind around frequency one. -/
def cfg1 : Cfg := ⟨1, 1, 1, 1, -1, 1, 1, 1, 1, 0, true⟩

theorem cfg1_wf : cfg1.WF := by
  unfold Cfg.WF cfg1
  norm_num

theorem C63_full_false : ¬ FullRecord := by
  intro h
  obtain ⟨q, hq⟩ : ∃ q : Coord.Par, q.WF := ⟨⟨3 / 10, 82 / 100, 14, 1 / 2, 0, true⟩, by norm_num, by norm_num, by norm_num, ⟨7, rfl⟩, by norm_num⟩
  have hp := h cfg1 cfg1_wf q hq (1 / 2) q.startx1 1 (by norm_num) (by norm_num) le_rfl (by norm_num) le_rfl
    ⟨Coord.blTh q (1 / 2) q.startx1 1, 0, -1, 1, 0, 0, false⟩ rfl le_rfl (by norm_num) (fun _ => ⟨le_rfl, by norm_num [cfg1]⟩) le_rfl
    (fun _ => 0, 0)
  have hth : Real.pi ≤ Coord.blTh q (1 / 2) q.startx1 1 := by
    rw [Coord.C78_upper_edge q hq (1 / 2) q.startx1 (by norm_num) (by norm_num)]
    linarith
  have hb := C63_pole cfg1.nth cfg1.nphi (by decide) _ 0 hth
  have hnb : nuBin cfg1 (-1) = some 0 := by
    simp [nuBin, cfg1, dlnu, cInt]
    norm_num
  unfold record at hp
  rw [if_neg (by simp)] at hp
  simp only [hnb, Option.bind_some] at hp
  rw [if_pos (by simp [cfg1])] at hp
  unfold bump at hp
  rw [if_neg] at hp
  · simp at hp
  · unfold inArr
    rw [decide_eq_true_eq]
    rintro ⟨_, h2, _⟩
    exact absurd h2.2 (not_lt.2 hb)

/-! ## C91 -/

theorem arg_range (z : ℂ) : 0 ≤ (if Complex.arg z < 0 then Complex.arg z + 2 * Real.pi else Complex.arg z) ∧
    (if Complex.arg z < 0 then Complex.arg z + 2 * Real.pi else Complex.arg z) < 2 * Real.pi := by
  have h1 := Complex.neg_pi_lt_arg z
  have h2 := Complex.arg_le_pi z
  have hp := Real.pi_pos
  split_ifs with h <;> constructor <;> linarith

/-- **C91 (existing bin; partial).** A packet of positive energy that moves in any direction but exactly along the negative third axis is put in an existing bin.
Missing: that direction (`C91_full_false`). -/
theorem C91_in_array_partial (c : Cfg) (hc : c.WF) (d : Dir) (hE : d.K 0 < 0) (hxy : d.K 1 ≠ 0 ∨ d.K 2 ≠ 0 ∨ 0 < d.K 3)
    (ht : c.useTypes = true → 0 ≤ d.type ∧ d.type < c.n0) (hs : 0 ≤ d.nscatt) (A : Arr) : (binDir c d A).isSome := by
  obtain ⟨hn, hp, hnu, hl, hD, hm, hh, h0⟩ := hc
  have hpi := Real.pi_pos
  have hn' : (0 : ℝ) < c.nth := by exact_mod_cast hn
  have hp' : (0 : ℝ) < c.nphi := by exact_mod_cast hp
  unfold binDir
  split_ifs
  · rfl
  · have hnu' : 0 < -d.K 0 * c.mec2 / c.hpl := by
      have : 0 < -d.K 0 := by linarith
      positivity
    unfold nuBin
    simp only
    rw [if_pos hnu']
    simp only [Option.bind_some]
    set x := unitK d 1 with hx
    set y := unitK d 2 with hy
    set z := unitK d 3 with hz
    have hx' : x = d.K 1 / (-d.K 0) := by rw [hx, unitK, div_neg, neg_div]
    have hy' : y = d.K 2 / (-d.K 0) := by rw [hy, unitK, div_neg, neg_div]
    have hz' : z = d.K 3 / (-d.K 0) := by rw [hz, unitK, div_neg, neg_div]
    have hK : 0 < -d.K 0 := by linarith
    have hcase : 0 < x * x + y * y ∨ (x = 0 ∧ y = 0 ∧ 0 < z) := by
      by_cases h1 : d.K 1 = 0
      · by_cases h2 : d.K 2 = 0
        · right
          have h3 : 0 < d.K 3 := by
            rcases hxy with h | h | h
            · exact absurd h1 h
            · exact absurd h2 h
            · exact h
          exact ⟨by rw [hx', h1, zero_div], by rw [hy', h2, zero_div], by rw [hz']; positivity⟩
        · left
          have : y ≠ 0 := by rw [hy']; exact div_ne_zero h2 hK.ne'
          have : 0 < y * y := mul_self_pos.2 this
          nlinarith [mul_self_nonneg x]
      · left
        have : x ≠ 0 := by rw [hx']; exact div_ne_zero h1 hK.ne'
        have : 0 < x * x := mul_self_pos.2 this
        nlinarith [mul_self_nonneg y]
    have hpos : 0 < x * x + y * y + z * z := by
      rcases hcase with h | ⟨_, _, h⟩
      · nlinarith [mul_self_nonneg z]
      · have : 0 < z * z := by positivity
        nlinarith [mul_self_nonneg x, mul_self_nonneg y]
    set r := Real.sqrt (x * x + y * y + z * z) with hr
    have hr0 : 0 < r := Real.sqrt_pos.2 hpos
    have hzr : -1 < z / r := by
      rw [lt_div_iff₀ hr0, neg_one_mul]
      rcases hcase with h | ⟨_, _, h⟩
      · have : Real.sqrt (z * z) < r := Real.sqrt_lt_sqrt (mul_self_nonneg z) (by linarith)
        rw [Real.sqrt_mul_self_eq_abs] at this
        have := neg_abs_le z
        linarith
      · linarith
    have hacos : Real.arccos (z / r) < Real.pi := by
      rcases lt_or_eq_of_le (Real.arccos_le_pi (z / r)) with h | h
      · exact h
      · exact absurd (Real.arccos_eq_pi.1 h) (not_le.2 hzr)
    have hang : dirAngles d = some (Real.arccos (z / r), if Complex.arg ⟨x, y⟩ < 0 then Complex.arg ⟨x, y⟩ + 2 * Real.pi else Complex.arg ⟨x, y⟩) := by
      unfold dirAngles
      simp only [← hx, ← hy, ← hz, ← hr]
      rw [if_neg hr0.ne']
    rw [hang]
    simp only [Option.bind_some]
    have hphi := arg_range ⟨x, y⟩
    generalize (if Complex.arg ⟨x, y⟩ < 0 then Complex.arg ⟨x, y⟩ + 2 * Real.pi else Complex.arg ⟨x, y⟩) = phi at hphi ⊢
    have ha := Real.arccos_nonneg (z / r)
    generalize Real.arccos (z / r) = th at ha hacos ⊢
    split_ifs with hrg
    · unfold bump
      rw [if_pos]
      · rfl
      · unfold inArr
        rw [decide_eq_true_eq]
        refine ⟨?_, ?_, ?_, hrg⟩
        · exact firstIdx_range c ⟨hn, hp, hnu, hl, hD, hm, hh, h0⟩ _ _ ht hs
        · apply cInt_range _ _ _ _ hn
          · have : 0 ≤ th / (Real.pi / c.nth) := by positivity
            linarith
          · rw [div_lt_iff₀ (by positivity)]
            have : (c.nth : ℝ) * (Real.pi / c.nth) = Real.pi := by field_simp
            rw [this]; exact hacos
        · apply cInt_range _ _ _ _ hp
          · have : 0 ≤ phi / (2 * Real.pi / c.nphi) := div_nonneg hphi.1 (by positivity)
            linarith
          · rw [div_lt_iff₀ (by positivity)]
            have : (c.nphi : ℝ) * (2 * Real.pi / c.nphi) = 2 * Real.pi := by field_simp
            rw [this]; exact hphi.2
    · rfl

/-- **C91 (negation).** A packet moving exactly along the negative third axis, whose frequency is in range, is put outside the array. -/
theorem C91_negative_axis (c : Cfg) (hc : c.WF) (d : Dir) (ht : d.isTracer = false) (hE : d.K 0 < 0) (h1 : d.K 1 = 0) (h2 : d.K 2 = 0) (h3 : d.K 3 < 0)
    (hf : c.lnumin ≤ Real.log (-d.K 0 * c.mec2 / c.hpl)) (hf2 : Real.log (-d.K 0 * c.mec2 / c.hpl) < c.lnumax) (A : Arr) : binDir c d A = none := by
  have hb := (bin_iff c hc (Real.log (-d.K 0 * c.mec2 / c.hpl))).2 ⟨by have := dlnu_pos c hc; linarith, hf2⟩
  obtain ⟨hn, hp, hnu, hl, hD, hm, hh, h0⟩ := hc
  have hK : 0 < -d.K 0 := by linarith
  have hnu' : 0 < -d.K 0 * c.mec2 / c.hpl := by positivity
  have hx : unitK d 1 = 0 := by rw [unitK, h1]; simp
  have hy : unitK d 2 = 0 := by rw [unitK, h2]; simp
  have hz : unitK d 3 < 0 := by
    rw [unitK, neg_div]
    exact neg_lt_zero.2 (div_pos_of_neg_of_neg h3 hE)
  have hang : dirAngles d = some (Real.pi, 0) := by
    unfold dirAngles
    simp only [hx, hy]
    have e : Real.sqrt (0 * 0 + 0 * 0 + unitK d 3 * unitK d 3) = -unitK d 3 := by
      rw [mul_zero, zero_add, zero_add, Real.sqrt_mul_self_eq_abs, abs_of_neg hz]
    rw [e, if_neg (by linarith)]
    have e2 : unitK d 3 / -unitK d 3 = -1 := by rw [div_neg, div_self hz.ne]
    rw [e2, Real.arccos_neg_one]
    have e3 : Complex.arg ⟨0, 0⟩ = 0 := Complex.arg_zero
    rw [e3]
    simp
  unfold binDir
  rw [if_neg (by simp [ht])]
  unfold nuBin
  simp only
  rw [if_pos hnu', hang]
  simp only [Option.bind_some]
  rw [if_pos hb]
  unfold bump
  rw [if_neg]
  unfold inArr
  rw [decide_eq_true_eq]
  rintro ⟨_, hth, _⟩
  have := C63_pole c.nth c.nphi hn Real.pi 0 le_rfl
  exact absurd hth.2 (not_lt.2 this)

/-- The full claim, for every direction. -/
def FullDir : Prop := ∀ (c : Cfg) (_ : c.WF) (d : Dir), d.K 0 < 0 → (d.K 1 ≠ 0 ∨ d.K 2 ≠ 0 ∨ d.K 3 ≠ 0) →
  (c.useTypes = true → 0 ≤ d.type ∧ d.type < c.n0) → 0 ≤ d.nscatt → ∀ A : Arr, (binDir c d A).isSome

theorem C91_full_false : ¬ FullDir := by
  intro h
  have hs := h cfg1 cfg1_wf ⟨fun i => if i = 0 ∨ i = 3 then -1 else 0, 1, 0, 0, false⟩ (by norm_num) (Or.inr (Or.inr (by norm_num)))
    (fun _ => ⟨le_rfl, by norm_num [cfg1]⟩) le_rfl (fun _ => 0)
  rw [C91_negative_axis cfg1 cfg1_wf] at hs
  · simp at hs
  · rfl
  · norm_num
  · simp
  · simp
  · norm_num
  · norm_num [cfg1]
  · norm_num [cfg1]

/-- A packet along the positive first axis is put in an existing bin. -/
example : (binDir cfg1 ⟨fun i => if i = 0 then -1 else if i = 1 then 1 else 0, 1, 0, 0, false⟩ fun _ => 0).isSome :=
  C91_in_array_partial cfg1 cfg1_wf _ (by norm_num) (Or.inl (by norm_num)) (fun _ => ⟨le_rfl, by norm_num [cfg1]⟩) le_rfl _

open Classical in
/-- **C91 (total).** If all packets are binned inside the array, the sum of the entries grows by the total weight of the packets whose frequency is counted. -/
theorem C91_total (c : Cfg) (hc : c.WF) (l : List Dir) : ∀ (A A' : Arr), binAll c l A = some A' →
    sumArr c A' = sumArr c A +
        ((l.filter fun d => decide (d.isTracer = false ∧ c.lnumin - dlnu c < Real.log (-d.K 0 * c.mec2 / c.hpl) ∧
          Real.log (-d.K 0 * c.mec2 / c.hpl) < c.lnumax)).map Dir.w).sum := by
  induction l with
  | nil =>
    intro A A' h
    obtain rfl := Option.some.inj h
    simp
  | cons d l ih =>
    intro A A' h
    simp only [binAll] at h
    obtain ⟨A1, h1, h2⟩ := Option.bind_eq_some_iff.1 h
    have e1 := ih A1 A' h2
    set C : Prop := d.isTracer = false ∧ c.lnumin - dlnu c < Real.log (-d.K 0 * c.mec2 / c.hpl) ∧
          Real.log (-d.K 0 * c.mec2 / c.hpl) < c.lnumax with hC
    have key : (C → sumArr c A1 = sumArr c A + d.w) ∧ (¬ C → A1 = A) := by
      unfold binDir at h1
      split_ifs at h1 with ht
      · obtain rfl := Option.some.inj h1
        exact ⟨fun hcp => by rw [hcp.1] at ht; simp at ht, fun _ => rfl⟩
      · obtain ⟨nub, hn, h3⟩ := Option.bind_eq_some_iff.1 h1
        unfold nuBin at hn
        simp only at hn
        split_ifs at hn with hpos
        obtain rfl := Option.some.inj hn
        obtain ⟨a, _, h4⟩ := Option.bind_eq_some_iff.1 h3
        split_ifs at h4 with hr'
        · have hr := (bin_iff c hc _).1 hr'
          exact ⟨fun _ => sum_bump c _ _ _ _ h4, fun hnc => absurd ⟨by simpa using ht, hr⟩ hnc⟩
        · have hr := fun h => hr' ((bin_iff c hc _).2 h)
          obtain rfl := Option.some.inj h4
          exact ⟨fun hcp => absurd hcp.2 hr, fun _ => rfl⟩
    by_cases hcp : C
    · rw [List.filter_cons_of_pos (by simpa only [decide_eq_true_eq] using hcp), e1, key.1 hcp]
      simp only [List.map_cons, List.sum_cons]
      ring
    · rw [List.filter_cons_of_neg (by simpa only [decide_eq_true_eq] using hcp), e1, key.2 hcp]

end Nubhlight.Spectrum
