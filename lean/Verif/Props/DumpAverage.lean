import Verif.Common
import Verif.Model.DumpAverage
import Mathlib.Tactic.FieldSimp
import Mathlib.Tactic.Linarith
import Mathlib.Tactic.Ring
import Mathlib.Tactic.NormNum
import Mathlib.Tactic.Positivity
import Mathlib.Data.Rat.Cast.Order
import Mathlib.Algebra.Order.BigOperators.Group.List
import Mathlib.Algebra.BigOperators.Ring.List

set_option autoImplicit false

/-! # C179, C180: means over azimuth and radial profiles -/

set_option linter.unusedSectionVars false

namespace Nubhlight.DumpAverage

variable {K : Type*} [Field K] [LinearOrder K] [IsStrictOrderedRing K] {ι κ : Type*}

/-! ## Simpson's rule -/

theorem basic_add (f g : ι → K) : ∀ l : List ι, basic (l.map fun z => f z + g z) = basic (l.map f) + basic (l.map g)
  | [] => by simp [basic]
  | [_] => by simp [basic]
  | [_, _] => by simp [basic]
  | a :: b :: c :: l => by
    have h := basic_add f g (c :: l)
    simp only [List.map_cons, basic] at h ⊢
    rw [h]
    ring

theorem basic_smul (s : K) (f : ι → K) : ∀ l : List ι, basic (l.map fun z => s * f z) = s * basic (l.map f)
  | [] => by simp [basic]
  | [_] => by simp [basic]
  | [_, _] => by simp [basic]
  | a :: b :: c :: l => by
    have h := basic_smul s f (c :: l)
    simp only [List.map_cons, basic] at h ⊢
    rw [h]
    ring

theorem basic_const (s : K) : ∀ l : List ι, l.length % 2 = 1 → basic (l.map fun _ => s) = s * ((l.length : K) - 1)
  | [], h => by simp at h
  | [_], _ => by simp [basic]
  | [_, _], h => by simp at h
  | a :: b :: c :: l, h => by
    have h := basic_const s (c :: l) (by simp at h ⊢; omega)
    simp only [List.map_cons, basic, List.length_cons] at h ⊢
    rw [h]
    push_cast
    ring

theorem basic_nonneg : ∀ y : List K, (∀ x ∈ y, 0 ≤ x) → 0 ≤ basic y
  | [], _ => le_rfl
  | [_], _ => le_rfl
  | [_, _], _ => le_rfl
  | a :: b :: c :: l, h => by
    have h' := basic_nonneg (c :: l) fun x hx => h x (by simp at hx ⊢; tauto)
    have ha := h a (by simp)
    have hb := h b (by simp)
    have hc := h c (by simp)
    simp only [basic]
    positivity

/-- Each point counts for at least a third. -/
theorem basic_ge : ∀ y : List K, (∀ x ∈ y, 0 ≤ x) → y.length % 2 = 1 → 3 ≤ y.length → y.sum / 3 ≤ basic y
  | [], _, h, _ => by simp at h
  | [_], _, _, h => by simp at h
  | [_, _], _, h, _ => by simp at h
  | [a, b, c], h, _, _ => by
    have hb := h b (by simp)
    simp only [basic, List.sum_cons, List.sum_nil]
    linarith
  | [_, _, _, _], _, h, _ => by simp at h
  | a :: b :: c :: d :: e :: l, h, h1, _ => by
    have h' := basic_ge (c :: d :: e :: l) (fun x hx => h x (by simp at hx ⊢; tauto)) (by simp at h1 ⊢; omega) (by simp)
    have hb := h b (by simp)
    have hc := h c (by simp)
    rw [basic]
    simp only [List.sum_cons] at h' ⊢
    linarith

/-- Each point counts for at most four thirds, the first and the last for at most a third. -/
theorem basic_le : ∀ y : List K, (∀ x ∈ y, 0 ≤ x) → y.length % 2 = 1 → ∀ (a : K) (l : List K) (b : K) (m : List K), y = a :: l → y.reverse = b :: m → 3 ≤ y.length →
    basic y ≤ 4 / 3 * y.sum - a - b
  | [], _, h, _, _, _, _, _, _, _ => by simp at h
  | [_], _, _, _, _, _, _, _, _, h => by simp at h
  | [_, _], _, h, _, _, _, _, _, _, _ => by simp at h
  | [a, b, c], h, _, a', l', b', m', e, r, _ => by
    obtain ⟨rfl, -⟩ := List.cons.inj e
    have : c = b' := by simpa using (List.cons.inj r).1
    subst this
    simp only [basic, List.sum_cons, List.sum_nil]
    linarith
  | [_, _, _, _], _, h, _, _, _, _, _, _, _ => by simp at h
  | a :: b :: c :: d :: e :: l, h, h1, a', l', b', m', e', r, _ => by
    obtain ⟨rfl, -⟩ := List.cons.inj e'
    have hr : ∃ m'', (c :: d :: e :: l).reverse = b' :: m'' := by
      have hne : (c :: d :: e :: l).reverse ≠ [] := by simp
      obtain ⟨b'', m'', hb⟩ := List.exists_cons_of_ne_nil hne
      have : (a :: b :: c :: d :: e :: l).reverse = (c :: d :: e :: l).reverse ++ [b, a] := by simp
      rw [this, hb] at r
      exact ⟨m'', by rw [hb, (List.cons.inj r).1]⟩
    obtain ⟨m'', hm⟩ := hr
    have h' := basic_le (c :: d :: e :: l) (fun x hx => h x (by simp at hx ⊢; tauto)) (by simp at h1 ⊢; omega) c _ b' m'' rfl hm (by simp)
    have hc := h c (by simp)
    rw [basic]
    simp only [List.sum_cons] at h' ⊢
    linarith

theorem firstPair_add (f g : ι → K) (l : List ι) : firstPair (l.map fun z => f z + g z) = firstPair (l.map f) + firstPair (l.map g) := by
  rcases l with _ | ⟨a, _ | ⟨b, l⟩⟩ <;> simp [firstPair]
  ring

theorem firstPair_smul (s : K) (f : ι → K) (l : List ι) : firstPair (l.map fun z => s * f z) = s * firstPair (l.map f) := by
  rcases l with _ | ⟨a, _ | ⟨b, l⟩⟩ <;> simp [firstPair]
  ring

theorem lastPair_add (f g : ι → K) (l : List ι) : lastPair (l.map fun z => f z + g z) = lastPair (l.map f) + lastPair (l.map g) := by
  simp only [lastPair, ← List.map_reverse]
  exact firstPair_add f g _

theorem lastPair_smul (s : K) (f : ι → K) (l : List ι) : lastPair (l.map fun z => s * f z) = s * lastPair (l.map f) := by
  simp only [lastPair, ← List.map_reverse]
  exact firstPair_smul s f _

theorem firstPair_nonneg (y : List K) (h : ∀ x ∈ y, 0 ≤ x) : 0 ≤ firstPair y := by
  rcases y with _ | ⟨a, _ | ⟨b, l⟩⟩
  · exact le_rfl
  · exact le_rfl
  · have ha := h a (by simp)
    have hb := h b (by simp)
    simp only [firstPair]
    positivity

theorem simps_add (dx : K) (f g : ι → K) (l : List ι) : simps dx (l.map fun z => f z + g z) = simps dx (l.map f) + simps dx (l.map g) := by
  unfold simps
  simp only [List.length_map]
  split
  · rw [← List.map_dropLast, ← List.map_tail, ← List.map_dropLast, ← List.map_tail, ← List.map_dropLast, ← List.map_tail, basic_add, basic_add, lastPair_add,
      firstPair_add]
    ring
  · rw [basic_add]
    ring

theorem simps_smul (dx s : K) (f : ι → K) (l : List ι) : simps dx (l.map fun z => s * f z) = s * simps dx (l.map f) := by
  unfold simps
  simp only [List.length_map]
  split
  · rw [← List.map_dropLast, ← List.map_tail, ← List.map_dropLast, ← List.map_tail, basic_smul, basic_smul, lastPair_smul, firstPair_smul]
    ring
  · rw [basic_smul]
    ring

theorem simps_nonneg (dx : K) (hdx : 0 ≤ dx) (y : List K) (h : ∀ x ∈ y, 0 ≤ x) : 0 ≤ simps dx y := by
  unfold simps
  have h1 := basic_nonneg y.dropLast fun x hx => h x (List.mem_of_mem_dropLast hx)
  have h2 := basic_nonneg y.tail fun x hx => h x (List.mem_of_mem_tail hx)
  have h3 := firstPair_nonneg y h
  have h4 : 0 ≤ lastPair y := firstPair_nonneg _ fun x hx => h x (by simpa using hx)
  have h5 := basic_nonneg y h
  split <;> positivity

theorem simps_mono (dx : K) (hdx : 0 ≤ dx) (f g : ι → K) (l : List ι) (h : ∀ z ∈ l, f z ≤ g z) : simps dx (l.map f) ≤ simps dx (l.map g) := by
  have e : simps dx (l.map g) = simps dx (l.map f) + simps dx (l.map fun z => g z - f z) := by
    rw [← simps_add]
    congr 1
    exact List.map_congr_left fun z _ => by ring
  have := simps_nonneg dx hdx (l.map fun z => g z - f z) (by
    intro x hx
    obtain ⟨z, hz, rfl⟩ := List.mem_map.1 hx
    exact sub_nonneg.2 (h z hz))
  rw [e]
  linarith

/-- Even number of points, more than two: the pieces. -/
theorem even_pieces (y : List K) (h : y.length % 2 = 0) (h2 : 2 ≤ y.length) :
    ∃ (a b c d : K) (m : List K), (y = [a, d] ∧ y.dropLast = [a] ∧ y.tail = [d] ∧ lastPair y = (a + d) / 2 ∧ firstPair y = (a + d) / 2) ∨
      (y = a :: b :: (m ++ [c, d]) ∧ lastPair y = (c + d) / 2 ∧ firstPair y = (a + b) / 2 ∧ y.dropLast = a :: b :: (m ++ [c]) ∧ y.tail = b :: (m ++ [c, d])) := by
  rcases y with _ | ⟨a, _ | ⟨b, l⟩⟩
  · simp at h2
  · simp at h2
  · rcases List.eq_nil_or_concat l with rfl | ⟨l', d, rfl⟩
    · refine ⟨a, a, b, b, [], Or.inl ⟨rfl, rfl, rfl, ?_, rfl⟩⟩
      simp [lastPair, firstPair, add_comm]
    · rcases List.eq_nil_or_concat l' with rfl | ⟨m, c, rfl⟩
      · simp at h
      · refine ⟨a, b, c, d, m, Or.inr ⟨by simp, ?_, rfl, ?_, by simp⟩⟩
        · simp [lastPair, firstPair, add_comm]
        · simp [List.dropLast_cons_of_ne_nil]

/-- Every point counts for between a third and four thirds of the spacing. -/
theorem simps_bounds (dx : K) (hdx : 0 ≤ dx) (y : List K) (h : ∀ x ∈ y, 0 ≤ x) (h2 : 2 ≤ y.length) :
    dx * y.sum / 3 ≤ simps dx y ∧ simps dx y ≤ 4 / 3 * (dx * y.sum) := by
  suffices H : y.sum / 3 ≤ (if y.length % 2 = 0 then (basic y.dropLast + basic y.tail) / 2 + (lastPair y + firstPair y) / 2 else basic y) ∧
      (if y.length % 2 = 0 then (basic y.dropLast + basic y.tail) / 2 + (lastPair y + firstPair y) / 2 else basic y) ≤ 4 / 3 * y.sum by
    unfold simps
    split at H <;> rename_i hp
    · rw [if_pos hp]
      have a := mul_le_mul_of_nonneg_left H.1 hdx
      have b := mul_le_mul_of_nonneg_left H.2 hdx
      constructor <;> linarith
    · rw [if_neg hp]
      have a := mul_le_mul_of_nonneg_left H.1 hdx
      have b := mul_le_mul_of_nonneg_left H.2 hdx
      constructor <;> linarith
  split
  · rename_i hp
    obtain ⟨a, b, c, d, m, ⟨e, e1, e2, e3, e4⟩ | ⟨e, e1, e2, e3, e4⟩⟩ := even_pieces y hp h2
    · rw [e1, e2, e3, e4]
      have ha := h a (by simp [e])
      have hd := h d (by simp [e])
      subst e
      simp only [basic, List.sum_cons, List.sum_nil]
      constructor <;> linarith
    · have ha := h a (by simp [e])
      have hb := h b (by simp [e])
      have hc := h c (by simp [e])
      have hd := h d (by simp [e])
      rw [e1, e2, e3, e4]
      have p1 : ∀ x ∈ a :: b :: (m ++ [c]), 0 ≤ x := fun x hx => h x (by rw [e]; simp at hx ⊢; tauto)
      have p2 : ∀ x ∈ b :: (m ++ [c, d]), 0 ≤ x := fun x hx => h x (by rw [e]; simp at hx ⊢; tauto)
      have hl : (m.length + 4) % 2 = 0 := by
        rw [e] at hp
        simpa using hp
      have l1 : (a :: b :: (m ++ [c])).length % 2 = 1 := by simp; omega
      have l2 : (b :: (m ++ [c, d])).length % 2 = 1 := by simp; omega
      have g1 := basic_ge _ p1 l1 (by simp)
      have g2 := basic_ge _ p2 l2 (by simp)
      have u1 := basic_le _ p1 l1 a _ c (m.reverse ++ [b, a]) rfl (by simp) (by simp)
      have u2 := basic_le _ p2 l2 b _ d (c :: (m.reverse ++ [b])) rfl (by simp) (by simp)
      rw [e]
      simp only [List.sum_cons, List.sum_append, List.sum_nil] at g1 g2 u1 u2 ⊢
      constructor <;> linarith
  · rename_i hp
    have h3 : 3 ≤ y.length := by omega
    obtain ⟨a, l, e⟩ := List.exists_cons_of_ne_nil (show y ≠ [] by rintro rfl; simp at h2)
    obtain ⟨b, m, r⟩ := List.exists_cons_of_ne_nil (show y.reverse ≠ [] by intro z; rw [List.reverse_eq_nil_iff] at z; subst z; simp at h2)
    have ha := h a (by simp [e])
    have hb := h b (by
      have : b ∈ y.reverse := by simp [r]
      simpa using this)
    have u := basic_le y h (by omega) a l b m e r h3
    exact ⟨basic_ge y h (by omega) h3, by linarith⟩

theorem simps_const (dx s : K) (l : List ι) (h : 2 ≤ l.length) : simps dx (l.map fun _ => s) = dx * s * ((l.length : K) - 1) := by
  unfold simps
  simp only [List.length_map]
  split
  · rename_i hp
    have e1 : lastPair (l.map fun _ => s) = s := by
      rcases hl : l.reverse with _ | ⟨a, _ | ⟨b, m⟩⟩
      · have : l.length = 0 := by rw [← List.length_reverse, hl]; rfl
        omega
      · have : l.length = 1 := by rw [← List.length_reverse, hl]; rfl
        omega
      · rw [lastPair, ← List.map_reverse, hl]
        simp [firstPair]
    have e2 : firstPair (l.map fun _ => s) = s := by
      rcases l with _ | ⟨a, _ | ⟨b, m⟩⟩
      · simp at h
      · simp at h
      · simp [firstPair]
    rw [← List.map_dropLast, ← List.map_tail, e1, e2, basic_const s l.dropLast (by simp; omega), basic_const s l.tail (by simp; omega)]
    simp only [List.length_dropLast, List.length_tail]
    rw [Nat.cast_sub (by omega)]
    push_cast
    ring
  · rename_i hp
    rw [basic_const s l (by omega)]
    ring

/-! ## C179 -/

/-- C179 in full: for all lines of zones in azimuth, the one zone of the dump written, of the width it is given, holds as much as the zones it replaces, and it does
not matter which zone of the ring comes first. -/
def FullC179 (K : Type*) [Field K] [LinearOrder K] : Prop :=
  (∀ (dx gd : K) (q : List K), 0 < dx → 0 < gd → 2 ≤ q.length → avgPhi 0 dx (fun _ => gd) id q * gd * newWidth dx q.length = (q.map fun x => x * gd * dx).sum) ∧
  (∀ (dx gd : K) (a : K) (q : List K), 0 < dx → 0 < gd → 1 ≤ q.length → avgPhi 0 dx (fun _ => gd) id (a :: q) = avgPhi 0 dx (fun _ => gd) id (q ++ [a]))

theorem num_eq (dx gd : K) (q : ι → K) (l : List ι) : simps dx (l.map fun z => q z * gd) = gd * simps dx (l.map q) := by
  rw [← simps_smul]
  congr 1
  exact List.map_congr_left fun z _ => mul_comm _ _

theorem den_eq (dx gd : K) (l : List ι) (h : 2 ≤ l.length) : simps dx (l.map fun _ => gd * 1) = dx * gd * ((l.length : K) - 1) := by
  rw [simps_const dx (gd * 1) l h, mul_one]

theorem len_pos (l : List ι) (h : 2 ≤ l.length) : (0 : K) < (l.length : K) - 1 := by
  have : (2 : K) ≤ (l.length : K) := by exact_mod_cast h
  linarith

/-- **C179.** The mean is between the smallest and the largest value along the line, up to the factor by which `SMALL` lowers it, whatever metric entries are set
beside the zones, as long as they are positive. -/
theorem C179_range (small dx lo hi : K) (hs : 0 ≤ small) (hdx : 0 < dx) (gd q : ι → K) (l : List ι) (h2 : 2 ≤ l.length) (hg : ∀ z ∈ l, 0 < gd z)
    (hq : ∀ z ∈ l, lo ≤ q z ∧ q z ≤ hi) :
    ∃ D : K, 0 < D ∧ lo * (D / (D + small)) ≤ avgPhi small dx gd q l ∧ avgPhi small dx gd q l ≤ hi * (D / (D + small)) := by
  have hD : 0 < simps dx (l.map fun z => gd z * 1) := by
    have hb := (simps_bounds dx hdx.le (l.map fun z => gd z * 1) (by
      intro x hx
      obtain ⟨z, hz, rfl⟩ := List.mem_map.1 hx
      rw [mul_one]
      exact (hg z hz).le) (by simpa using h2)).1
    have hsum : 0 < (l.map fun z => gd z * 1).sum := by
      rcases l with _ | ⟨a, l⟩
      · simp at h2
      · simp only [List.map_cons, List.sum_cons, mul_one]
        have := hg a (by simp)
        have h' : 0 ≤ (l.map gd).sum := List.sum_nonneg (by
          intro x hx
          obtain ⟨z, hz, rfl⟩ := List.mem_map.1 hx
          exact (hg z (by simp [hz])).le)
        linarith
    have : 0 < dx * (l.map fun z => gd z * 1).sum / 3 := by positivity
    linarith
  refine ⟨_, hD, ?_, ?_⟩
  · unfold avgPhi
    rw [← mul_div_assoc]
    refine div_le_div_of_nonneg_right ?_ (by linarith)
    rw [← simps_smul]
    refine simps_mono dx hdx.le _ _ l fun z hz => ?_
    rw [mul_one]
    exact mul_le_mul_of_nonneg_right (hq z hz).1 (hg z hz).le
  · unfold avgPhi
    rw [← mul_div_assoc]
    refine div_le_div_of_nonneg_right ?_ (by linarith)
    rw [← simps_smul]
    refine simps_mono dx hdx.le _ _ l fun z hz => ?_
    rw [mul_one]
    exact mul_le_mul_of_nonneg_right (hq z hz).2 (hg z hz).le

/-- **C179.** A value that is the same all around is kept, up to that factor; with the metric of one line, the factor is that of `N - 1` zones. -/
theorem C179_constant (small dx gd c : K) (l : List ι) (h2 : 2 ≤ l.length) :
    avgPhi small dx (fun _ => gd) (fun _ => c) l = c * (dx * gd * ((l.length : K) - 1) / (dx * gd * ((l.length : K) - 1) + small)) := by
  unfold avgPhi
  rw [den_eq dx gd l h2, simps_const dx (c * gd) l h2, ← mul_div_assoc]
  congr 1
  ring

/-- **C179.** The mean of a sum is the sum of the means, and the mean of a multiple the multiple of the mean. -/
theorem C179_linear (small dx s : K) (gd p q : ι → K) (l : List ι) :
    avgPhi small dx gd (fun z => p z + s * q z) l = avgPhi small dx gd p l + s * avgPhi small dx gd q l := by
  unfold avgPhi
  rw [← mul_div_assoc, ← add_div, ← simps_smul, ← simps_add]
  congr 2
  exact List.map_congr_left fun z _ => by ring

/-- **C179** (what is missing: the amount is not kept exactly, and which zone comes first matters: `C179_full_false`). With the metric of one line and values that are not
negative, the one zone written holds between a third and four thirds, times `N / (N - 1)`, of what the zones it replaces held, up to the factor of `SMALL`. -/
theorem C179_amount_partial (small dx gd : K) (hs : 0 ≤ small) (hdx : 0 < dx) (hg : 0 < gd) (q : ι → K) (l : List ι) (h2 : 2 ≤ l.length) (hq : ∀ z ∈ l, 0 ≤ q z) :
    let N : K := l.length
    let f : K := dx * gd * (N - 1) / (dx * gd * (N - 1) + small)
    let held := (l.map fun z => q z * gd * dx).sum
    let new := avgPhi small dx (fun _ => gd) q l * gd * newWidth dx l.length
    1 / 3 * (N / (N - 1)) * f * held ≤ new ∧ new ≤ 4 / 3 * (N / (N - 1)) * f * held := by
  intro N f held new
  have hN : (0 : K) < N - 1 := len_pos l h2
  have hNN : (0 : K) < N := by linarith
  have hG : 0 < dx * gd * (N - 1) := by positivity
  have hden : 0 < dx * gd * (N - 1) + small := by linarith
  have eh : held = gd * dx * (l.map q).sum := by
    show (l.map fun z => q z * gd * dx).sum = _
    rw [mul_comm, ← List.sum_map_mul_right]
    congr 1
    exact List.map_congr_left fun z _ => by ring
  have en : new = gd * simps dx (l.map q) / (dx * gd * (N - 1) + small) * gd * (dx * N) := by
    show avgPhi small dx (fun _ => gd) q l * gd * newWidth dx l.length = _
    unfold avgPhi newWidth
    rw [num_eq, den_eq dx gd l h2]
  obtain ⟨b1, b2⟩ := simps_bounds dx hdx.le (l.map q) (by
    intro x hx
    obtain ⟨z, hz, rfl⟩ := List.mem_map.1 hx
    exact hq z hz) (by simpa using h2)
  have key : ∀ t : K, t * (N / (N - 1)) * f * held = gd * (t * (dx * (l.map q).sum)) / (dx * gd * (N - 1) + small) * gd * (dx * N) := by
    intro t
    rw [eh]
    show t * (N / (N - 1)) * (dx * gd * (N - 1) / (dx * gd * (N - 1) + small)) * (gd * dx * (l.map q).sum) = _
    field_simp
  have mono : ∀ {u v : K}, u ≤ v → gd * u / (dx * gd * (N - 1) + small) * gd * (dx * N) ≤ gd * v / (dx * gd * (N - 1) + small) * gd * (dx * N) := by
    intro u v huv
    have h1 : gd * u / (dx * gd * (N - 1) + small) ≤ gd * v / (dx * gd * (N - 1) + small) :=
      div_le_div_of_nonneg_right (mul_le_mul_of_nonneg_left huv hg.le) hden.le
    exact mul_le_mul_of_nonneg_right (mul_le_mul_of_nonneg_right h1 hg.le) (by positivity)
  rw [key, key, en]
  exact ⟨mono (by linarith), mono (by linarith)⟩

/-- Non-vacuity: a line of four zones. -/
example : avgPhi 0 (1 / 2 : ℚ) (fun _ => 3) id [1, 2, 5, 4] = 29 / 9 := by
  norm_num [avgPhi, simps, basic, lastPair, firstPair]

/-- The full property fails: of three zones, gas in the first only counts half, gas in the middle only twice what it should. -/
theorem C179_full_false : ¬ FullC179 K := by
  rintro ⟨h, -⟩
  have e := h 1 1 [1, 0, 0] one_pos one_pos (by simp)
  simp [avgPhi, simps, basic, newWidth] at e
  norm_num at e

/-- Where the ring is cut matters as well. -/
theorem C179_cut : avgPhi 0 (1 : K) (fun _ => 1) id [1, 0, 0] = 1 / 6 ∧ avgPhi 0 (1 : K) (fun _ => 1) id [0, 1, 0] = 2 / 3 := by
  constructor <;> simp [avgPhi, simps, basic] <;> norm_num

/-! ### Which metric -/

theorem find_first (shape : List ℕ) (n a : ℕ) (h : shape[a]? = some n) (hb : ∀ b < a, shape[b]? ≠ some n) : firstAxis shape n = some a := by
  unfold firstAxis
  rw [List.find?_range_eq_some]
  have ha : a < shape.length := by
    by_contra hc
    rw [List.getElem?_eq_none (by omega)] at h
    simp at h
  refine ⟨by simp [h], by simpa using ha, fun b hb' => ?_⟩
  simpa using hb b hb'

theorem find_last (shape : List ℕ) (n a : ℕ) (h : shape[a]? = some n) (hb : ∀ b, a < b → shape[b]? ≠ some n) : lastAxis shape n = some a := by
  unfold lastAxis
  have ha : a < shape.length := by
    by_contra hc
    rw [List.getElem?_eq_none (by omega)] at h
    simp at h
  have hs : List.range shape.length = List.range a ++ a :: (List.range' (a + 1) (shape.length - a - 1)) := by
    rw [List.range_eq_range', List.range_eq_range']
    have h1 : a :: List.range' (a + 1) (shape.length - a - 1) = List.range' (0 + 1 * a) (shape.length - a - 1 + 1) := by
      rw [List.range'_succ]
      simp
    rw [h1, List.range'_append]
    congr 1
    omega
  rw [hs, List.reverse_append, List.reverse_cons, List.find?_append, List.find?_append]
  have hn : (List.range' (a + 1) (shape.length - a - 1)).reverse.find? (fun a => shape[a]? == some n) = none := by
    rw [List.find?_eq_none]
    intro b hb'
    rw [List.mem_reverse, List.mem_range'_1] at hb'
    simpa using hb b (by omega)
  rw [hn]
  simp [h]

/-- **C179.** The metric is set along the first two grid axes of an array `(…, N1, N2, N3, …)` exactly if no later axis has `N2` points, given that no earlier one
has `N1` or `N2` points. -/
theorem C179_metric (pre post : List ℕ) (n1 n2 n3 : ℕ) (hp : n1 ∉ pre ∧ n2 ∉ pre) :
    metricAxes (pre ++ n1 :: n2 :: n3 :: post) n1 n2 = some (pre.length, pre.length + 1) ↔ n3 ≠ n2 ∧ n2 ∉ post := by
  set shape := pre ++ n1 :: n2 :: n3 :: post with hsh
  have hpre : ∀ b < pre.length, ∀ n, n ∉ pre → shape[b]? ≠ some n := by
    intro b hb n hn he
    rw [hsh, List.getElem?_append_left hb] at he
    exact hn (List.mem_of_getElem? he)
  have g : ∀ t, shape[pre.length + t]? = (n1 :: n2 :: n3 :: post)[t]? := by
    intro t
    rw [hsh, List.getElem?_append_right (by omega)]
    congr 1
    omega
  have h1 : firstAxis shape n1 = some pre.length := find_first shape n1 _ (by simpa using g 0) fun b hb => hpre b hb n1 hp.1
  constructor
  · intro h
    simp only [metricAxes, h1, Option.bind_eq_bind, Option.bind_some, Option.bind_eq_some_iff] at h
    obtain ⟨e, he, h⟩ := h
    split at h
    · rename_i hc
      have hee : e = pre.length + 1 := by
        have := (Prod.mk.inj (Option.some.inj h)).2
        exact this
      subst hee
      have hlast : ∀ b, pre.length + 1 < b → shape[b]? ≠ some n2 := by
        intro b hb hx
        have hbl : b < shape.length := by
          by_contra hcc
          rw [List.getElem?_eq_none (by omega)] at hx
          simp at hx
        -- the last such axis
        obtain ⟨m, hm, hmax⟩ : ∃ m, shape[m]? = some n2 ∧ b ≤ m ∧ ∀ x, m < x → shape[x]? ≠ some n2 := by
          by_contra hno
          push Not at hno
          have step : ∀ d, ∃ m, b + d ≤ m ∧ shape[m]? = some n2 := by
            intro d
            induction d with
            | zero => exact ⟨b, le_rfl, hx⟩
            | succ d ih =>
              obtain ⟨m, hm, hv⟩ := ih
              obtain ⟨x, hxm, hxv⟩ := hno m hv (by omega)
              exact ⟨x, by omega, hxv⟩
          obtain ⟨m, hm, hv⟩ := step shape.length
          rw [List.getElem?_eq_none (by omega)] at hv
          simp at hv
        have := find_last shape n2 m hm hmax.2
        rw [this] at he
        have := Option.some.inj he
        omega
      refine ⟨fun h3 => hlast (pre.length + 2) (by omega) (by rw [g 2]; simp [h3]), fun hm => ?_⟩
      obtain ⟨t, ht⟩ := List.mem_iff_getElem?.1 hm
      exact hlast (pre.length + (t + 3)) (by omega) (by rw [g (t + 3)]; simpa using ht)
    · simp at h
  · rintro ⟨h3, hpost⟩
    have h2 : lastAxis shape n2 = some (pre.length + 1) := by
      refine find_last shape n2 _ (by simpa using g 1) fun b hb hx => ?_
      obtain ⟨t, rfl⟩ : ∃ t, b = pre.length + t := ⟨b - pre.length, by omega⟩
      rw [g t] at hx
      rcases t with _ | _ | _ | t
      · omega
      · omega
      · exact h3 (by simpa using hx)
      · exact hpost (List.mem_of_getElem? (by simpa using hx))
    have h0 : shape[pre.length]? = some n1 := by simpa using g 0
    simp [metricAxes, h1, h2, h0]

/-- **C179** (equal numbers of zones). In a cube of zones the metric of zone `(i, j)` is used for zone `(·, i, j)`; with as many zones in azimuth as in the polar
angle, but another number in radius, the script stops. -/
theorem C179_metric_equal (n n1 : ℕ) (h : n1 ≠ n) : metricAxes [n, n, n] n n = some (1, 2) ∧ metricAxes [n1, n, n] n1 n = none := by
  constructor
  · simp [metricAxes, firstAxis, lastAxis, List.range_succ]
  · simp [metricAxes, firstAxis, lastAxis, List.range_succ, h.symm]

example : metricAxes [96, 66, 8, 11] 96 66 = some (0, 1) ∧ metricAxes [5, 96, 66, 8] 96 66 = some (1, 2) := by decide +kernel

/-! ## C180 -/

theorem shell_add (dx2 dx3 : K) (gd : ι → K) (u v : ι → κ → K) (js : List ι) (ks : List κ) :
    shell dx2 dx3 gd (fun j k => u j k + v j k) js ks = shell dx2 dx3 gd u js ks + shell dx2 dx3 gd v js ks := by
  unfold shell
  rw [← simps_add]
  congr 1
  refine List.map_congr_left fun j _ => ?_
  rw [← simps_add]
  congr 1
  exact List.map_congr_left fun k _ => by ring

theorem shell_smul (dx2 dx3 s : K) (gd : ι → K) (u : ι → κ → K) (js : List ι) (ks : List κ) :
    shell dx2 dx3 gd (fun j k => s * u j k) js ks = s * shell dx2 dx3 gd u js ks := by
  unfold shell
  rw [← simps_smul]
  congr 1
  refine List.map_congr_left fun j _ => ?_
  rw [← simps_smul]
  congr 1
  exact List.map_congr_left fun k _ => by ring

theorem shell_mono (dx2 dx3 : K) (h2 : 0 ≤ dx2) (h3 : 0 ≤ dx3) (gd : ι → K) (u v : ι → κ → K) (js : List ι) (ks : List κ) (hg : ∀ j ∈ js, 0 ≤ gd j)
    (h : ∀ j ∈ js, ∀ k ∈ ks, u j k ≤ v j k) : shell dx2 dx3 gd u js ks ≤ shell dx2 dx3 gd v js ks := by
  unfold shell
  refine simps_mono dx2 h2 _ _ js fun j hj => ?_
  refine simps_mono dx3 h3 _ _ ks fun k hk => ?_
  exact mul_le_mul_of_nonneg_right (h j hj k hk) (hg j hj)

/-- The sum over the zones of a shell. -/
def shellSum (dx2 dx3 : K) (gd : ι → K) (var : ι → κ → K) (js : List ι) (ks : List κ) : K :=
  (js.map fun j => (ks.map fun k => var j k * gd j * dx3).sum * dx2).sum

/-- **C180.** The integral over a shell of something not negative is between a ninth and sixteen ninths of the sum over its zones. -/
theorem C180_shell (dx2 dx3 : K) (h2 : 0 ≤ dx2) (h3 : 0 ≤ dx3) (gd : ι → K) (var : ι → κ → K) (js : List ι) (ks : List κ) (hj : 2 ≤ js.length) (hk : 2 ≤ ks.length)
    (hg : ∀ j ∈ js, 0 ≤ gd j) (hv : ∀ j ∈ js, ∀ k ∈ ks, 0 ≤ var j k) :
    shellSum dx2 dx3 gd var js ks / 9 ≤ shell dx2 dx3 gd var js ks ∧ shell dx2 dx3 gd var js ks ≤ 16 / 9 * shellSum dx2 dx3 gd var js ks := by
  have inner : ∀ j ∈ js, dx3 * (ks.map fun k => var j k * gd j).sum / 3 ≤ simps dx3 (ks.map fun k => var j k * gd j) ∧
      simps dx3 (ks.map fun k => var j k * gd j) ≤ 4 / 3 * (dx3 * (ks.map fun k => var j k * gd j).sum) := by
    intro j hjm
    refine simps_bounds dx3 h3 _ ?_ (by simpa using hk)
    intro x hx
    obtain ⟨k, hkm, rfl⟩ := List.mem_map.1 hx
    exact mul_nonneg (hv j hjm k hkm) (hg j hjm)
  have hs : ∀ j ∈ js, 0 ≤ (ks.map fun k => var j k * gd j).sum := by
    intro j hjm
    refine List.sum_nonneg fun x hx => ?_
    obtain ⟨k, hkm, rfl⟩ := List.mem_map.1 hx
    exact mul_nonneg (hv j hjm k hkm) (hg j hjm)
  have es : shellSum dx2 dx3 gd var js ks = dx2 * (js.map fun j => dx3 * (ks.map fun k => var j k * gd j).sum).sum := by
    unfold shellSum
    rw [mul_comm dx2, ← List.sum_map_mul_right]
    congr 1
    refine List.map_congr_left fun j _ => ?_
    rw [List.sum_map_mul_right]
    ring
  have outer := simps_bounds dx2 h2 (js.map fun j => dx3 * (ks.map fun k => var j k * gd j).sum) (by
    intro x hx
    obtain ⟨j, hjm, rfl⟩ := List.mem_map.1 hx
    exact mul_nonneg h3 (hs j hjm)) (by simpa using hj)
  have lo : simps dx2 (js.map fun j => 1 / 3 * (dx3 * (ks.map fun k => var j k * gd j).sum)) ≤ shell dx2 dx3 gd var js ks :=
    simps_mono dx2 h2 _ _ js fun j hjm => by linarith [(inner j hjm).1]
  have hi : shell dx2 dx3 gd var js ks ≤ simps dx2 (js.map fun j => 4 / 3 * (dx3 * (ks.map fun k => var j k * gd j).sum)) :=
    simps_mono dx2 h2 _ _ js fun j hjm => (inner j hjm).2
  rw [simps_smul] at lo hi
  rw [es]
  constructor <;> linarith [outer.1, outer.2]

theorem shell_pos (dx2 dx3 : K) (h2 : 0 < dx2) (h3 : 0 < dx3) (gd : ι → K) (var : ι → κ → K) (js : List ι) (ks : List κ) (hj : 2 ≤ js.length) (hk : 2 ≤ ks.length)
    (hg : ∀ j ∈ js, 0 < gd j) (hv : ∀ j ∈ js, ∀ k ∈ ks, 0 < var j k) : 0 < shell dx2 dx3 gd var js ks := by
  have h := (C180_shell dx2 dx3 h2.le h3.le gd var js ks hj hk (fun j m => (hg j m).le) (fun j m k m' => (hv j m k m').le)).1
  have : 0 < shellSum dx2 dx3 gd var js ks := by
    unfold shellSum
    have pos : ∀ (f : ι → K) (l : List ι), l ≠ [] → (∀ z ∈ l, 0 < f z) → 0 < (l.map f).sum := by
      intro f l hl hp
      refine List.sum_pos _ (fun x hx => ?_) (by simpa using hl)
      obtain ⟨z, hz, rfl⟩ := List.mem_map.1 hx
      exact hp z hz
    refine pos _ js (by rintro rfl; simp at hj) fun j hjm => mul_pos ?_ h2
    refine List.sum_pos _ (fun x hx => ?_) (by rintro e; simp at e; subst e; simp at hk)
    obtain ⟨k, hkm, rfl⟩ := List.mem_map.1 hx
    exact mul_pos (mul_pos (hv j hjm k hkm) (hg j hjm)) h3
  linarith

/-- **C180.** Where the gas has mass, the profile weighted with density exists and lies between the smallest and the largest value on the shell. -/
theorem C180_weighted (dx2 dx3 lo hi : K) (h2 : 0 < dx2) (h3 : 0 < dx3) (gd : ι → K) (rho q : ι → κ → K) (js : List ι) (ks : List κ) (hj : 2 ≤ js.length)
    (hk : 2 ≤ ks.length) (hg : ∀ j ∈ js, 0 < gd j) (hr : ∀ j ∈ js, ∀ k ∈ ks, 0 < rho j k) (hq : ∀ j ∈ js, ∀ k ∈ ks, lo ≤ q j k ∧ q j k ≤ hi) :
    ∃ v : K, weighted dx2 dx3 gd rho q js ks = some v ∧ lo ≤ v ∧ v ≤ hi := by
  have hD := shell_pos dx2 dx3 h2 h3 gd rho js ks hj hk hg hr
  refine ⟨_, by simp only [weighted]; rw [if_neg hD.ne'], ?_, ?_⟩
  · rw [le_div_iff₀ hD, ← shell_smul]
    exact shell_mono dx2 dx3 h2.le h3.le gd _ _ js ks (fun j m => (hg j m).le) fun j m k m' => mul_le_mul_of_nonneg_right (hq j m k m').1 (hr j m k m').le
  · rw [div_le_iff₀ hD, ← shell_smul]
    exact shell_mono dx2 dx3 h2.le h3.le gd _ _ js ks (fun j m => (hg j m).le) fun j m k m' => mul_le_mul_of_nonneg_right (hq j m k m').2 (hr j m k m').le

/-- **C180.** The mean over the sphere exists and lies between the smallest and the largest value on the shell. -/
theorem C180_spherical (dx2 dx3 lo hi : K) (h2 : 0 < dx2) (h3 : 0 < dx3) (gd : ι → K) (q : ι → κ → K) (js : List ι) (ks : List κ) (hj : 2 ≤ js.length)
    (hk : 2 ≤ ks.length) (hg : ∀ j ∈ js, 0 < gd j) (hq : ∀ j ∈ js, ∀ k ∈ ks, lo ≤ q j k ∧ q j k ≤ hi) :
    ∃ v : K, spherical dx2 dx3 gd q js ks = some v ∧ lo ≤ v ∧ v ≤ hi := by
  have h := C180_weighted dx2 dx3 lo hi h2 h3 gd (fun _ _ => 1) q js ks hj hk hg (fun _ _ _ _ => one_pos) hq
  simpa only [weighted, spherical, mul_one] using h

/-- **C180.** In two dimensions the profile is that of the same gas spread evenly over azimuth. -/
theorem C180_two_dimensions (twoPi dx2 dx3 : K) (gd rho q : ι → K) (js : List ι) (ks : List κ) (hk : 2 ≤ ks.length) (hp : 0 < twoPi) (hx : 0 < dx3) :
    shell2d twoPi dx2 gd (fun j => q j * rho j) js / shell2d twoPi dx2 gd rho js =
      shell dx2 dx3 gd (fun j (_ : κ) => q j * rho j) js ks / shell dx2 dx3 gd (fun j (_ : κ) => rho j) js ks := by
  have a : ∀ v : ι → K, shell2d twoPi dx2 gd v js = twoPi * simps dx2 (js.map fun j => v j * gd j) := by
    intro v
    unfold shell2d
    rw [simps_smul]
  have hN : (0 : K) < (ks.length : K) - 1 := len_pos ks hk
  have b : ∀ v : ι → K, shell dx2 dx3 gd (fun j (_ : κ) => v j) js ks = dx3 * ((ks.length : K) - 1) * simps dx2 (js.map fun j => v j * gd j) := by
    intro v
    unfold shell
    rw [← simps_smul]
    congr 1
    refine List.map_congr_left fun j _ => ?_
    rw [simps_const dx3 _ ks hk]
    ring
  rw [a, a, b (fun j => q j * rho j), b rho, mul_div_mul_left _ _ hp.ne', mul_div_mul_left _ _ (by positivity)]

/-- **C180.** Both means of a sum are the sums of the means (for the same gas). -/
theorem C180_linear (dx2 dx3 s : K) (gd : ι → K) (rho p q : ι → κ → K) (js : List ι) (ks : List κ) (a b : K) (ha : weighted dx2 dx3 gd rho p js ks = some a)
    (hb : weighted dx2 dx3 gd rho q js ks = some b) : weighted dx2 dx3 gd rho (fun j k => p j k + s * q j k) js ks = some (a + s * b) := by
  simp only [weighted] at ha hb ⊢
  split at ha
  · simp at ha
  · rename_i h0
    rw [if_neg h0] at hb ⊢
    rw [← Option.some.inj ha, ← Option.some.inj hb]
    congr 1
    have e : (fun j k => (p j k + s * q j k) * rho j k) = fun j k => p j k * rho j k + s * (q j k * rho j k) := by
      funext j k
      ring
    rw [e, shell_add, shell_smul]
    ring

/-- Non-vacuity: a shell of three times four zones. -/
example : weighted (1 / 3 : ℚ) (1 / 2) (fun j : ℕ => j + 1) (fun _ k : ℕ => k + 1) (fun j k => j * k) [0, 1, 2] [0, 1, 2, 3] = some (287 / 135) := by
  norm_num [weighted, shell, simps, basic, lastPair, firstPair]

end Nubhlight.DumpAverage
