import Verif.Props.EosInvert
import Verif.Props.Util
import Verif.Model.EntropyCurve

set_option autoImplicit false
set_option linter.unusedSectionVars false

/-! # C146: gas on a curve of constant entropy -/

namespace Nubhlight.EntropyCurve
open EosTable RootFind EosInvert
open Nubhlight.Util (rd interp1d findIndex trunc SMALL)

/-- Entropy the table gives, by logarithms of density and temperature. -/
noncomputable def entropy (T : Tabs) (lrho lT ye : ℝ) : ℝ := lTf T.A T.ent lrho ye lT

/-- The error allowed in the entropy: that of the root finder. -/
noncomputable def slack (M s : ℝ) : ℝ := 200 * tol * (M + |s| + 1)

/-! ## Stored temperatures -/

section stored
variable {T : Tabs} {f : ℕ → ℕ → ℕ → ℝ} {m M : ℝ} (hR : Rising T.A f m M) (hs : Stores T.A T.ent f)
include hR hs

theorem at_in (i : ℕ) (hi : i + 1 < T.A.r.n) : T.A.r.lo ≤ T.A.r.at i ∧ T.A.r.at i < T.A.r.hi := by
  have h := hR.even.r
  refine ⟨(h.at_range i (by omega)).1, ?_⟩
  have h2 := (h.at_range (i + 1) hi).2
  have hp := h.pos
  unfold Axis.at at *
  push_cast at h2
  linarith

theorem catchLrho_at (i : ℕ) (hi : i + 1 < T.A.r.n) : catchLrho T (T.A.r.at i) = T.A.r.at i := by
  have h := at_in hR hs i hi
  rw [catchLrho, clampLrho, if_neg (not_lt.2 h.1), if_neg (not_lt.2 h.2.le)]

/-- One search: the temperature found has the entropy sought, and if the table has that entropy at this density, the temperature is near one in the table. -/
theorem find0d_ok (i : ℕ) (hi : i + 1 < T.A.r.n) (guess ye s : ℝ) (hy : T.A.y.lo ≤ ye ∧ ye < T.A.y.hi) (hs0 : T.entMin ≤ s) (hs1 : s < T.entMax) (n : ℕ) (t : ℝ)
    (h : find0d T (T.A.r.at i) guess ye s n = some (.ok t)) :
    |entropy T (T.A.r.at i) t ye - s| ≤ slack M s ∧
      (entropy T (T.A.r.at i) T.A.t.lo ye ≤ s → s ≤ entropy T (T.A.r.at i) T.A.t.hi ye →
        ∃ z, T.A.t.lo ≤ z ∧ z ≤ T.A.t.hi ∧ entropy T (T.A.r.at i) z ye = s ∧ m * |t - z| ≤ slack M s) := by
  have hI : InTable T.A (T.A.r.at i) ye := ⟨at_in hR hs i hi, hy⟩
  have cs : catchS T s = s := by rw [catchS, clamp, if_neg (not_lt.2 hs0), if_neg (not_le.2 hs1)]
  have cy : catchYe T.A ye = ye := catchYe_in hy.1 hy.2
  unfold find0d at h
  rw [catchLrho_at hR hs i hi, cs, cy] at h
  have ht := tol_pos (K := ℝ)
  have hw := wide_t hR hs hI
  have hco := hR.coarse
  have hM := hR.M_pos
  have h1 := h
  rw [find_eq hR hs hI] at h1
  have hc : Close M (entropy T (T.A.r.at i) t ye) s := by
    rcases root_residual _ M s _ _ _ _ _ (by linarith) (by linarith) (by linarith) (lT_lip hR hs hI) n t h1 with h2 | h2
    · left; unfold entropy; linarith
    · right; exact h2
  have hle := hc.le hM.le
  refine ⟨hle, fun b0 b1 => ?_⟩
  obtain ⟨-, z, z0, z1, hz, hmz⟩ := find_ok hR hs hI _ s b0 b1 n t h
  exact ⟨z, z0, z1, hz, hmz.trans hle⟩

/-- What one pass leaves. -/
def Good (T : Tabs) (m M s ye : ℝ) (i : ℕ) (acc : Acc) : Prop :=
  ∃ t h, acc.1[i]? = some t ∧ |entropy T (T.A.r.at i) t ye - s| ≤ slack M s ∧
    (entropy T (T.A.r.at i) T.A.t.lo ye ≤ s → s ≤ entropy T (T.A.r.at i) T.A.t.hi ye →
      ∃ z, T.A.t.lo ≤ z ∧ z ≤ T.A.t.hi ∧ entropy T (T.A.r.at i) z ye = s ∧ m * |t - z| ≤ slack M s) ∧
    interp3 T.A T.hm1 (T.A.r.at i) t ye = some h ∧ acc.2.1 ≤ (h : WithTop ℝ) ∧ (h : WithBot ℝ) ≤ acc.2.2

/-- The least enthalpy is one of those seen. -/
def Attained (T : Tabs) (ye : ℝ) (l : List ℕ) (acc : Acc) (start : WithTop ℝ) : Prop :=
  acc.2.1 = start ∨ ∃ i ∈ l, ∃ t h, acc.1[i]? = some t ∧ interp3 T.A T.hm1 (T.A.r.at i) t ye = some h ∧ acc.2.1 = (h : WithTop ℝ)

theorem pass_ok (i : ℕ) (hi : i + 1 < T.A.r.n) (ye s : ℝ) (hy : T.A.y.lo ≤ ye ∧ ye < T.A.y.hi) (hs0 : T.entMin ≤ s) (hs1 : s < T.entMax) (n : ℕ) (acc acc' : Acc)
    (hlen : i < acc.1.length) (h : pass T s ye n i acc = some (.ok acc')) :
    ∃ t, acc'.1 = acc.1.set i t ∧ Good T m M s ye i acc' ∧ acc'.2.1 ≤ acc.2.1 ∧ acc.2.2 ≤ acc'.2.2 ∧
      (acc'.2.1 = acc.2.1 ∨ ∃ h, interp3 T.A T.hm1 (T.A.r.at i) t ye = some h ∧ acc'.2.1 = (h : WithTop ℝ)) := by
  unfold pass at h
  have hx : rd T.A.r.x i = some (T.A.r.at i) := hR.even.r.node i (by omega)
  rw [hx] at h
  simp only at h
  rw [Option.bind_eq_some_iff] at h
  obtain ⟨r, hr, h⟩ := h
  cases r with
  | fail => simp at h
  | ok t =>
    simp only at h
    rw [Option.map_eq_some_iff] at h
    obtain ⟨w, hw, h⟩ := h
    rw [Out.ok.injEq] at h
    subst h
    obtain ⟨e1, e2⟩ := find0d_ok hR hs i hi _ ye s hy hs0 hs1 n t hr
    refine ⟨t, rfl, ⟨t, w, ?_, e1, e2, hw, ?_, ?_⟩, ?_, ?_, ?_⟩
    · simp only [List.getElem?_set, hlen, if_true]
    · simp only
      split_ifs with c
      · exact le_refl _
      · exact not_lt.1 c
    · simp only
      split_ifs with c
      · exact le_refl _
      · exact not_lt.1 c
    · simp only
      split_ifs with c
      · exact c.le
      · exact le_refl _
    · simp only
      split_ifs with c
      · exact c.le
      · exact le_refl _
    · simp only
      split_ifs with c
      · exact Or.inr ⟨w, hw, rfl⟩
      · exact Or.inl rfl

theorem loop_ok (ye s : ℝ) (hy : T.A.y.lo ≤ ye ∧ ye < T.A.y.hi) (hs0 : T.entMin ≤ s) (hs1 : s < T.entMax) (n : ℕ) (l : List ℕ) (hl : ∀ i ∈ l, i + 1 < T.A.r.n) (hnd : l.Nodup)
    (acc acc' : Acc) (hlen : T.A.r.n ≤ acc.1.length) (h : loop T s ye n l acc = some (.ok acc')) :
    (∀ i ∈ l, Good T m M s ye i acc') ∧ (∀ i, i ∉ l → acc'.1[i]? = acc.1[i]?) ∧ acc'.2.1 ≤ acc.2.1 ∧ acc.2.2 ≤ acc'.2.2 ∧ Attained T ye l acc' acc.2.1 := by
  induction l generalizing acc with
  | nil =>
    simp only [loop, Option.some.injEq, Out.ok.injEq] at h
    subst h
    exact ⟨by simp, fun _ _ => rfl, le_refl _, le_refl _, Or.inl rfl⟩
  | cons i l ih =>
    rw [loop, Option.bind_eq_some_iff] at h
    obtain ⟨o, ho, h⟩ := h
    cases o with
    | fail => simp at h
    | outside => simp at h
    | ok a =>
      simp only at h
      have hi := hl i (by simp)
      obtain ⟨t, et, hg, g1, g2, g3⟩ := pass_ok hR hs i hi ye s hy hs0 hs1 n acc a (by omega) ho
      have hin : i ∉ l := (List.nodup_cons.1 hnd).1
      obtain ⟨k1, k2, k3, k4, k5⟩ := ih (fun j hj => hl j (by simp [hj])) (List.nodup_cons.1 hnd).2 a (by rw [et, List.length_set]; exact hlen) h
      have keep : acc'.1[i]? = some t := by
        rw [k2 i hin, et, List.getElem?_set]
        simp only [if_true]
        rw [if_pos (by omega)]
      refine ⟨?_, ?_, k3.trans g1, g2.trans k4, ?_⟩
      · intro j hj
        rcases List.mem_cons.1 hj with rfl | hj
        · obtain ⟨t', w, q1, q2, q3, q4, q5, q6⟩ := hg
          exact ⟨t', w, by rw [k2 j hin]; exact q1, q2, q3, q4, k3.trans q5, q6.trans k4⟩
        · exact k1 j hj
      · intro j hj
        have hj1 : j ≠ i := fun e => hj (by simp [e])
        rw [k2 j (fun e => hj (by simp [e])), et, List.getElem?_set, if_neg (Ne.symm hj1)]
      · rcases k5 with k5 | ⟨j, hj, t', w, q1, q2, q3⟩
        · rcases g3 with g3 | ⟨w, hw, g3⟩
          · left; rw [k5, g3]
          · right
            exact ⟨i, by simp, t, w, keep, hw, by rw [k5, g3]⟩
        · right
          exact ⟨j, by simp [hj], t', w, q1, q2, q3⟩

theorem catchLrho_le (x : ℝ) : catchLrho T x ≤ T.A.r.hi := by
  have ht := tol_pos (K := ℝ)
  have := hR.even.r.wide
  unfold catchLrho clampLrho
  split_ifs with h1 h2
  · linarith
  · linarith
  · exact not_lt.1 h2

theorem firstIndex_lt (x : ℝ) (hx : x ≤ T.A.r.hi) : firstIndex T x < T.A.r.n := by
  have h2 := hR.even.r.two
  have key := (Util.C23_index x T.A.r.x).2
  have hlast := hR.even.r.node (T.A.r.n - 1) (by omega)
  have e : T.A.r.lo + ((T.A.r.n - 1 : ℕ) : ℝ) * T.A.r.d = T.A.r.hi := by
    rw [hR.even.r.top, Nat.cast_sub (by omega)]
    push_cast
    ring
  rw [e] at hlast
  unfold firstIndex
  split_ifs with h
  · omega
  · by_contra hc
    obtain ⟨k, hk⟩ := Int.eq_ofNat_of_zero_le (not_lt.1 h)
    obtain ⟨-, hbelow⟩ := (key k).1 hk
    have h3 : T.A.r.n - 1 < k := by omega
    have h4 : T.A.r.x[T.A.r.n - 1]? = some T.A.r.hi := by
      unfold rd at hlast
      rw [if_pos (by omega), Int.toNat_natCast] at hlast
      exact hlast
    linarith [hbelow _ h3 _ h4]

theorem mem_indices (a b : ℤ) (ha : 0 ≤ a) (i : ℕ) : i ∈ indices a b ↔ a ≤ (i : ℤ) ∧ (i : ℤ) ≤ b := by
  unfold indices
  rw [List.mem_range'_1]
  omega

/-- **C146 (stored temperatures).** When a curve of constant entropy is found for an entropy and an electron fraction within the bounds of the table, it is a curve of that entropy
and fraction, its densities are densities of the table, and at each of them the temperature stored is one at which the table has the entropy asked for, to within the tolerance of the
root finder; where the table has that entropy at that density, the temperature is that close to one in the table. The least enthalpy of the curve is the least at its densities.
Missing for the full claim: temperatures of the curve outside the table (`C146_extrapolated`), reads outside the table (`C146_before_table`) and what is made of the curve
(`C146_full_false`). -/
theorem C146_curve_partial (mem : List ℝ) (hmem : mem.length = T.A.r.n) (s ye : ℝ) (hy : T.A.y.lo ≤ ye ∧ ye < T.A.y.hi) (hs0 : T.entMin ≤ s) (hs1 : s < T.entMax) (n : ℕ) (c : Curve)
    (h : find1d T mem s ye n = some (.ok c)) :
    c.s = s ∧ c.ye = ye ∧ 0 ≤ c.imin ∧ 0 ≤ c.imax ∧ c.imax + 2 ≤ T.A.r.n ∧ c.lo = T.A.r.at c.imin.toNat ∧ c.hi = T.A.r.at c.imax.toNat ∧
      (∀ i : ℕ, c.imin ≤ i → (i : ℤ) ≤ c.imax → ∃ t, c.lT[i]? = some t ∧ |entropy T (T.A.r.at i) t ye - s| ≤ slack M s ∧
        (entropy T (T.A.r.at i) T.A.t.lo ye ≤ s → s ≤ entropy T (T.A.r.at i) T.A.t.hi ye →
          ∃ z, T.A.t.lo ≤ z ∧ z ≤ T.A.t.hi ∧ entropy T (T.A.r.at i) z ye = s ∧ m * |t - z| ≤ slack M s) ∧
        ∃ w, interp3 T.A T.hm1 (T.A.r.at i) t ye = some w ∧ c.hMin ≤ (w : WithTop ℝ) ∧ (w : WithBot ℝ) ≤ c.hMax) ∧
      (c.imin ≤ c.imax → ∃ i : ℕ, c.imin ≤ i ∧ (i : ℤ) ≤ c.imax ∧ ∃ t w, c.lT[i]? = some t ∧ interp3 T.A T.hm1 (T.A.r.at i) t ye = some w ∧ c.hMin = (w : WithTop ℝ)) := by
  have cs : catchS T s = s := by rw [catchS, clamp, if_neg (not_lt.2 hs0), if_neg (not_le.2 hs1)]
  have cy : catchYe T.A ye = ye := catchYe_in hy.1 hy.2
  unfold find1d at h
  simp only [cs, cy] at h
  rw [Option.bind_eq_some_iff] at h
  obtain ⟨e, he, h⟩ := h
  have hminn : firstIndex T e.1 < T.A.r.n := by
    apply firstIndex_lt hR hs
    unfold ends at he
    simp only [Option.bind_eq_some_iff, Option.map_eq_some_iff] at he
    obtain ⟨_, -, _, -, rfl⟩ := he
    exact catchLrho_le hR hs _
  have hmin0 : 0 ≤ firstIndex T e.1 := by
    unfold firstIndex
    split_ifs with q
    · exact le_refl _
    · omega
  have hmaxn : lastIndex T e.2 + 2 ≤ T.A.r.n := by
    unfold lastIndex
    split_ifs with q
    · omega
    · omega
  generalize firstIndex T e.1 = a at h hmin0 hminn
  generalize lastIndex T e.2 = b at h hmaxn
  cases ha : rd T.A.r.x a with
  | none => rw [ha] at h; simp at h
  | some lo =>
    cases hb : rd T.A.r.x b with
    | none => rw [ha, hb] at h; simp at h
    | some hi =>
      rw [ha, hb] at h
      simp only at h
      rw [Option.map_eq_some_iff] at h
      obtain ⟨o, ho, h⟩ := h
      cases o with
      | fail => simp at h
      | outside => simp at h
      | ok acc =>
        simp only [Out.ok.injEq] at h
        subst h
        have hb0 : 0 ≤ b := by
          unfold rd at hb
          by_contra hc
          rw [if_neg hc] at hb
          simp at hb
        have hl : ∀ i ∈ indices a b, i + 1 < T.A.r.n := by
          intro i hi
          rw [mem_indices hR hs a b hmin0] at hi
          omega
        obtain ⟨k1, k2, k3, k4, k5⟩ := loop_ok hR hs ye s hy hs0 hs1 n _ hl (List.nodup_range' ..) _ _ (by simp [hmem]) ho
        have hata : lo = T.A.r.at a.toNat := by
          have := hR.even.r.node a.toNat (by omega)
          rw [Int.toNat_of_nonneg hmin0, ha] at this
          exact Option.some.inj this
        have hatb : hi = T.A.r.at b.toNat := by
          have := hR.even.r.node b.toNat (by omega)
          rw [Int.toNat_of_nonneg hb0, hb] at this
          exact Option.some.inj this
        refine ⟨rfl, rfl, hmin0, hb0, hmaxn, hata, hatb, ?_, ?_⟩
        · intro i h1 h2
          obtain ⟨t, w, q1, q2, q3, q4, q5, q6⟩ := k1 i ((mem_indices hR hs a b hmin0 i).2 ⟨h1, h2⟩)
          exact ⟨t, q1, q2, q3, w, q4, q5, q6⟩
        · intro (hab : a ≤ b)
          rcases k5 with k5 | ⟨i, hi, t, w, q1, q2, q3⟩
          · exfalso
            obtain ⟨t, w, -, -, -, -, q5, -⟩ := k1 a.toNat ((mem_indices hR hs a b hmin0 _).2 ⟨by omega, by omega⟩)
            rw [k5] at q5
            simp at q5
          · have := (mem_indices hR hs a b hmin0 i).1 hi
            exact ⟨i, this.1, this.2, t, w, q1, q2, q3⟩

end stored

/-! ## Gas from the curve -/

/-- **C146 (spacing).** Temperatures stored for `N + 1` neighbouring densities, on a straight line: the temperature looked up at `ξ` spacings above the first density is that for
`ξ - (ξ - k) / N` spacings, where `ξ - k` is between zero and two and not zero except at the first density. The curve is followed too slowly: the spacing used is that of `N` densities. -/
theorem C146_spacing (lo d α β ξ : ℝ) (imin : ℤ) (N : ℕ) (h0 : 0 ≤ imin) (hN : 2 ≤ N) (hd : 0 < d) (tabx taby : List ℝ)
    (hx : ∀ m : ℕ, m ≤ N → rd tabx (imin + m) = some (lo + m * d)) (hy : ∀ m : ℕ, m ≤ N → rd taby (imin + m) = some (α + β * m)) (hξ0 : 0 ≤ ξ) (hξ1 : ξ ≤ N) :
    ∃ k : ℕ, interp1d (lo + ξ * d) lo (lo + N * d) imin (imin + N) tabx taby = some (α + β * (ξ - (ξ - k) / N)) ∧ 0 ≤ ξ - k ∧ ξ - k ≤ 2 ∧ (0 < ξ → 0 < ξ - k) := by
  have hNr : (2 : ℝ) ≤ N := by exact_mod_cast hN
  have hN1 : (0 : ℝ) < N - 1 := by linarith
  have hN0 : (0 : ℝ) < N := by linarith
  set z : ℝ := ξ * (N - 1) / N with hz
  have hz0 : 0 ≤ z := by positivity
  have hzle : z ≤ N - 1 := by
    rw [hz, div_le_iff₀ hN0]
    nlinarith
  obtain ⟨k, hk⟩ := Int.eq_ofNat_of_zero_le (Int.floor_nonneg.2 hz0)
  have k1 : (k : ℝ) ≤ z := by
    have := Int.floor_le z
    rw [hk] at this
    exact_mod_cast this
  have k2 : z < k + 1 := by
    have := Int.lt_floor_add_one z
    rw [hk] at this
    exact_mod_cast this
  have kN : k + 1 ≤ N := by
    have : (k : ℝ) + 1 ≤ N := by linarith
    exact_mod_cast this
  have zξ : z = ξ - ξ / N := by rw [hz]; field_simp
  have hdiv : 0 ≤ ξ / N := by positivity
  refine ⟨k, ?_, by linarith, ?_, fun hp => ?_⟩
  · unfold interp1d
    have hne : ¬ (imin + (N : ℤ) - imin - 1 = 0) := by omega
    have hcast : (((imin + (N : ℤ)) - imin - 1 : ℤ) : ℝ) = N - 1 := by push_cast; ring
    have hlen : lo + N * d - lo = N * d := by ring
    have hdx : (N : ℝ) * d / (N - 1) ≠ 0 := by positivity
    simp only [hcast, hlen]
    have c1 : ¬ (lo + ξ * d < lo) := by
      have : 0 ≤ ξ * d := by positivity
      linarith
    have c2 : ¬ (lo + ξ * d > lo + N * d) := by
      have : ξ * d ≤ N * d := mul_le_mul_of_nonneg_right hξ1 hd.le
      linarith
    rw [if_neg c1, if_neg c2, if_neg hne, if_neg hdx]
    have ez : (lo + ξ * d - lo) / (N * d / (N - 1)) = z := by
      rw [hz]; field_simp
      try ring
    have ht : trunc ((imin : ℝ) + (lo + ξ * d - lo) / (N * d / (N - 1))) = imin + k := by
      rw [ez]
      unfold trunc
      rw [if_pos (add_nonneg (by exact_mod_cast h0) hz0), Int.floor_intCast_add, hk]
    rw [ht, hx k (by omega), hy k (by omega), show imin + (k : ℤ) + 1 = imin + ((k + 1 : ℕ) : ℤ) by push_cast; ring, hy (k + 1) kN]
    simp only
    congr 1
    push_cast
    field_simp
    ring
  · rcases Nat.lt_or_ge (k + 1) N with hlt | hge
    · have hlt : (k : ℝ) + 2 ≤ N := by exact_mod_cast hlt
      have h3 : ξ * (N - 1) < (k + 1) * N := by
        have := k2
        rw [hz, div_lt_iff₀ hN0] at this
        exact this
      nlinarith
    · have : (k : ℝ) + 1 = N := by exact_mod_cast (by omega : k + 1 = N)
      linarith
  · have : 0 < ξ / N := by positivity
    linarith

/-- **C146 (gas at the first density).** Gas set up on a curve found in the table has the density and energy of one state of the table, with the electron fraction asked for and the
temperature looked up on the curve; when its density is the first of the curve, it has the entropy asked for. Missing for the full claim: other densities (`C146_full_false`). -/
theorem C146_gas_partial {T : Tabs} {f : ℕ → ℕ → ℕ → ℝ} {m M : ℝ} (hR : Rising T.A f m M) (hs : Stores T.A T.ent f) (hU : T.Uunit ≠ 0) (hRho : T.RHOunit ≠ 0) (mem : List ℝ)
    (hmem : mem.length = T.A.r.n) (s ye : ℝ) (hy : T.A.y.lo ≤ ye ∧ ye < T.A.y.hi) (hs0 : T.entMin ≤ s) (hs1 : s < T.entMax) (n : ℕ) (c : Curve)
    (h : find1d T mem s ye n = some (.ok c)) (hm1 guess : ℝ) (n' : ℕ) (lrho rho u : ℝ) (hg : gasOn T c hm1 guess n' = some (.ok (lrho, rho, u))) :
    ∃ t le, interp3 T.A T.le lrho t ye = some le ∧ rho * T.RHOunit = exp10 lrho ∧ u * T.Uunit = exp10 le * (rho * T.RHOunit) ∧ tempOn T c lrho = some t ∧
      (c.imin + 2 ≤ c.imax → lrho = T.A.r.at c.imin.toNat → c.lT[c.imin.toNat]? = some t ∧ |entropy T lrho t ye - s| ≤ slack M s) := by
  obtain ⟨-, e2, e3, e4, e5, e6, e7, e8, -⟩ := C146_curve_partial hR hs mem hmem s ye hy hs0 hs1 n c h
  unfold gasOn at hg
  cases htar : target T c hm1 with
  | none => rw [htar] at hg; simp at hg
  | some y =>
    rw [htar] at hg
    simp only at hg
    split_ifs at hg with hall
    · rw [Option.bind_eq_some_iff] at hg
      obtain ⟨r, -, hg⟩ := hg
      cases r with
      | fail => simp at hg
      | ok x =>
        simp only at hg
        rw [Option.bind_eq_some_iff] at hg
        obtain ⟨t, ht, hg⟩ := hg
        rw [Option.map_eq_some_iff] at hg
        obtain ⟨le, hle, hg⟩ := hg
        simp only [Out.ok.injEq, Prod.mk.injEq] at hg
        obtain ⟨rfl, rfl, rfl⟩ := hg
        rw [e2, catchYe_in hy.1 hy.2] at hle
        refine ⟨t, le, hle, by field_simp, ?_, ht, fun h2 h3 => ?_⟩
        · simp only [e2u, le2e]
          field_simp
          ring
        · obtain ⟨t', q1, q2, -⟩ := e8 c.imin.toNat (by omega) (by omega)
          have hlow := Util.C77_lower_partial T.A.r.lo T.A.r.d c.imin c.imax T.A.r.x c.lT (fun i => (c.lT[i.toNat]?).getD 0) hR.even.r.pos e3 h2
            (fun i h4 h5 => by
              have := hR.even.r.node i.toNat (by omega)
              have h6 : ((i.toNat : ℕ) : ℤ) = i := Int.toNat_of_nonneg (by omega)
              have h7 : ((i.toNat : ℕ) : ℝ) = (i : ℝ) := by exact_mod_cast h6
              rw [h6, h7] at this
              exact this)
            (fun i h4 h5 => by
              obtain ⟨t'', p1, -⟩ := e8 i.toNat (by omega) (by omega)
              unfold rd
              rw [if_pos (by omega), p1]
              rfl)
          have h6 : ((c.imin.toNat : ℕ) : ℝ) = (c.imin : ℝ) := by
            have : ((c.imin.toNat : ℕ) : ℤ) = c.imin := Int.toNat_of_nonneg e3
            exact_mod_cast this
          have hlo : rd T.A.r.x c.imin = some c.lo := by
            have := hR.even.r.node c.imin.toNat (by omega)
            rw [Int.toNat_of_nonneg e3] at this
            rw [this, e6]
            rfl
          have hhi : rd T.A.r.x c.imax = some c.hi := by
            have := hR.even.r.node c.imax.toNat (by omega)
            rw [Int.toNat_of_nonneg e4] at this
            rw [this, e7]
            rfl
          unfold Util.adiabatLookup at hlow
          rw [hlo, hhi] at hlow
          simp only at hlow
          have hx : T.A.r.lo + (c.imin : ℝ) * T.A.r.d = x := by rw [h3, Axis.at, h6]
          rw [hx] at hlow
          unfold tempOn at ht
          rw [ht, q1] at hlow
          have htt : t = t' := by simpa using hlow
          rw [htt]
          refine ⟨q1, ?_⟩
          rw [h3]
          exact q2
    · simp at hg

/-! ## A table -/

/-- The list holding `f` in the order of the table files. -/
noncomputable def tabOf (nr nt ny : ℕ) (f : ℕ → ℕ → ℕ → ℝ) : List ℝ := (List.range (nr * (ny * nt))).map fun e => f (e % nr) (e / nr % nt) (e / (nr * nt))

theorem tabOf_stores (A : Axes ℝ) (f : ℕ → ℕ → ℕ → ℝ) : Stores A (tabOf A.r.n A.t.n A.y.n f) f := by
  refine ⟨by simp [tabOf], fun i j k hi hj hk => ?_⟩
  have hlt : k * (A.r.n * A.t.n) + j * A.r.n + i < A.r.n * (A.y.n * A.t.n) := by
    have h1 : j * A.r.n + i < A.t.n * A.r.n := by nlinarith
    have h2 : (k + 1) * (A.r.n * A.t.n) ≤ A.y.n * (A.r.n * A.t.n) := Nat.mul_le_mul_right _ hk
    nlinarith
  have hr : 0 < A.r.n := by omega
  have e1 : (k * (A.r.n * A.t.n) + j * A.r.n + i) % A.r.n = i := by
    rw [show k * (A.r.n * A.t.n) + j * A.r.n + i = i + A.r.n * (k * A.t.n + j) by ring, Nat.add_mul_mod_self_left, Nat.mod_eq_of_lt hi]
  have e2 : (k * (A.r.n * A.t.n) + j * A.r.n + i) / A.r.n = j + A.t.n * k := by
    rw [show k * (A.r.n * A.t.n) + j * A.r.n + i = i + A.r.n * (j + A.t.n * k) by ring, Nat.add_mul_div_left _ _ hr, Nat.div_eq_of_lt hi, Nat.zero_add]
  have e3 : (k * (A.r.n * A.t.n) + j * A.r.n + i) / (A.r.n * A.t.n) = k := by
    rw [← Nat.div_div_eq_div_mul, e2, Nat.add_mul_div_left _ _ (by omega : 0 < A.t.n), Nat.div_eq_of_lt hj, Nat.zero_add]
  unfold tabOf
  rw [List.getElem?_map, List.getElem?_range hlt, Option.map_some, e1, e2, e3, Nat.add_mul_mod_self_left, Nat.mod_eq_of_lt hj]

/-- Tables linear in the logarithms are looked up exactly, also outside. -/
theorem lookup_affine (A : Axes ℝ) (hA : A.Even) (tab : List ℝ) (c a b g : ℝ) (hs : Stores A tab fun i j k => c + a * A.r.at i + b * A.t.at j + g * A.y.at k) (lrho lT ye : ℝ)
    (hr : lrho ≠ A.r.hi) : interp3 A tab lrho lT ye = some (c + a * lrho + b * lT + g * ye) := by
  obtain ⟨i, j, k, -, h, -⟩ := C33_lookup_partial A hA tab _ hs lrho lT ye hr
  rw [h]
  congr 1
  have h1 := hA.r.pos
  have h2 := hA.t.pos
  have h3 := hA.y.pos
  simp only [cellValue, mix, Axis.at]
  push_cast
  field_simp
  ring

/-- Four densities, four temperatures (logarithms zero to three), two electron fractions. -/
noncomputable def boxA : Axes ℝ := ⟨⟨4, 0, 3, 1, [0, 1, 2, 3]⟩, ⟨4, 0, 3, 1, [0, 1, 2, 3]⟩, ⟨2, 0, 1, 1, [0, 1]⟩⟩

/-- Entropy rises with temperature and electron fraction and falls with density; logarithms of enthalpy and of energy are those of temperature. -/
noncomputable def box : Tabs where
  A := boxA
  ent := tabOf 4 4 2 fun i j k => 10 + j - i + 20 * k
  hm1 := tabOf 4 4 2 fun _ j _ => exp10 (15 + j)
  lhm1 := tabOf 4 4 2 fun _ j _ => 15 + j
  le := tabOf 4 4 2 fun _ j _ => 14 + j
  entMin := 7
  entMax := 33
  hMin := exp10 15
  hMax := exp10 18
  hShift := 0
  CL := 1
  Uunit := 1
  RHOunit := 1

theorem box_even : box.A.Even := by
  refine ⟨⟨by norm_num [box, boxA], by norm_num [box, boxA], by norm_num [box, boxA, tol], by norm_num [box, boxA], fun m hm => ?_⟩,
    ⟨by norm_num [box, boxA], by norm_num [box, boxA], by norm_num [box, boxA, tol], by norm_num [box, boxA], fun m hm => ?_⟩,
    ⟨by norm_num [box, boxA], by norm_num [box, boxA], by norm_num [box, boxA, tol], by norm_num [box, boxA], fun m hm => ?_⟩⟩
  · have hm : m < 4 := hm
    interval_cases m <;> norm_num [box, boxA, rd] <;> rfl
  · have hm : m < 4 := hm
    interval_cases m <;> norm_num [box, boxA, rd] <;> rfl
  · have hm : m < 2 := hm
    interval_cases m <;> norm_num [box, boxA, rd] <;> rfl

def boxF (i j k : ℕ) : ℝ := 10 + j - i + 20 * k

theorem box_stores : Stores box.A box.ent boxF := tabOf_stores boxA boxF

theorem box_rising : Rising box.A boxF 1 1 := by
  refine ⟨box_even, by norm_num [box, boxA, tol], fun i j k _ _ _ => ?_, one_pos, by norm_num [box, boxA, tol], fun i k hi _ => ?_, Or.inr (by norm_num [box, boxA, tol])⟩
  · unfold boxF
    simp only [box, boxA]
    push_cast
    constructor <;> linarith
  · have hi : i < 4 := hi
    have h1 : (i : ℝ) ≤ 3 := by exact_mod_cast (by omega : i ≤ 3)
    have h2 : (0 : ℝ) ≤ k := Nat.cast_nonneg k
    unfold boxF
    simp only [box, boxA]
    push_cast
    linarith

theorem box_ent (lrho lT ye : ℝ) (h : lrho ≠ 3) : interp3 box.A box.ent lrho lT ye = some (10 + lT - lrho + 20 * ye) := by
  rw [lookup_affine box.A box_even box.ent 10 (-1) 1 20 ?_ lrho lT ye h]
  · congr 1; ring
  · have e : (fun i j k : ℕ => (10 : ℝ) + (-1) * box.A.r.at i + 1 * box.A.t.at j + 20 * box.A.y.at k) = boxF := by
      funext i j k
      simp only [Axis.at, box, boxA, boxF]
      ring
    rw [e]
    exact box_stores

theorem box_lhm1 (lrho lT ye : ℝ) (h : lrho ≠ 3) : interp3 box.A box.lhm1 lrho lT ye = some (15 + lT) := by
  rw [lookup_affine box.A box_even box.lhm1 15 0 1 0 ?_ lrho lT ye h]
  · congr 1; ring
  · have e : (fun i j k : ℕ => (15 : ℝ) + 0 * box.A.r.at i + 1 * box.A.t.at j + 0 * box.A.y.at k) = fun (_ j _ : ℕ) => 15 + (j : ℝ) := by
      funext i j k
      simp only [Axis.at, box, boxA]
      ring
    rw [e]
    exact tabOf_stores boxA fun (_ j _ : ℕ) => 15 + (j : ℝ)

theorem box_le (lrho lT ye : ℝ) (h : lrho ≠ 3) : interp3 box.A box.le lrho lT ye = some (14 + lT) := by
  rw [lookup_affine box.A box_even box.le 14 0 1 0 ?_ lrho lT ye h]
  · congr 1; ring
  · have e : (fun i j k : ℕ => (14 : ℝ) + 0 * box.A.r.at i + 1 * box.A.t.at j + 0 * box.A.y.at k) = fun (_ j _ : ℕ) => 14 + (j : ℝ) := by
      funext i j k
      simp only [Axis.at, box, boxA]
      ring
    rw [e]
    exact tabOf_stores boxA fun (_ j _ : ℕ) => 14 + (j : ℝ)

theorem box_entropy (lrho lT ye : ℝ) (h : lrho ≠ 3) : entropy box lrho lT ye = 10 + lT - lrho + 20 * ye := by
  rw [entropy, lTf, box_ent _ _ _ h]
  rfl

/-- Enthalpy at nodes. -/
theorem box_hm1 (i j : ℕ) (hi : i < 3) (hj : j < 4) : interp3 box.A box.hm1 i j 0 = some (exp10 (15 + j)) := by
  have h := C33_nodes_partial box.A box_even box.hm1 (fun _ j _ => exp10 (15 + j)) (tabOf_stores boxA fun _ j _ => exp10 (15 + j)) i j 0 (show i + 1 < 4 by omega) hj (show 0 < 2 by omega)
  have e1 : box.A.r.at i = i := by simp [Axis.at, box, boxA]
  have e2 : box.A.t.at j = j := by simp [Axis.at, box, boxA]
  have e3 : box.A.y.at 0 = 0 := by simp [Axis.at, box, boxA]
  rw [e1, e2, e3] at h
  exact h

theorem box_find0d (i : ℕ) (hi : i < 3) (s : ℝ) (h0 : 7 ≤ s) (h1 : s < 33) (guess : ℝ) (n : ℕ) :
    ∃ t, find0d box i guess 0 s n = some (.ok t) ∧ (((t = 0 ∨ t = 3 - 2 * tol) ∧ relErr (fun x : ℝ => 1 * x + (10 - (i : ℝ))) s (100 * tol) t < 100 * tol) ∨ t = s - 10 + i) := by
  have ht := tol_pos (K := ℝ)
  have hi' : (i : ℝ) ≤ 2 := by exact_mod_cast (by omega : i ≤ 2)
  have hne : (i : ℝ) ≠ 3 := by linarith
  have cl : catchLrho box i = i := by
    rw [catchLrho, clampLrho, if_neg (by simp [box, boxA]), if_neg (by simp only [box, boxA]; linarith)]
  have cs : catchS box s = s := by rw [catchS, clamp, if_neg (by simp only [box]; linarith), if_neg (by simp only [box]; linarith)]
  have cy : catchYe box.A 0 = 0 := by rw [catchYe, clamp, if_neg (by simp [box, boxA]), if_neg (by simp [box, boxA])]
  have hf : lTf box.A box.ent i 0 = fun x => 1 * x + (10 - (i : ℝ)) := by
    funext x
    rw [lTf, box_ent _ _ _ hne]
    simp only [Option.getD_some]
    ring
  unfold find0d findLT
  rw [cl, cs, cy, if_pos (fun x => by rw [box_ent _ _ _ hne]; rfl), hf]
  obtain ⟨r, hr, hr2⟩ := C22_affine (1 : ℝ) (10 - i) s (catchLT box.A guess) box.A.t.lo (box.A.t.hi - 2 * tol) (100 * tol) (100 * tol) one_ne_zero (by linarith) (by linarith) n
  refine ⟨r, hr, ?_⟩
  rcases hr2 with ⟨h2, h3⟩ | h2
  · exact Or.inl ⟨h2, h3⟩
  · right; linarith

/-! ### Searches that fail -/

theorem bisect_fails (f : ℝ → ℝ) (y g xmin xmax xtol : ℝ) (ht : 0 < xtol) (hneg : ∀ x, f x < y) : ∃ n, bisect f y g xmin xmax xtol n = some .fail := by
  obtain ⟨n, p, hp⟩ := bracket_terminates f y xmin xmax (nudge xtol g) (nudge_ne_zero ht g) (1 / 100) (by norm_num)
  refine ⟨n, ?_⟩
  have pos : ∀ a b, (f a - y) * (f b - y) > 0 := fun a b => mul_pos_of_neg_of_neg (by linarith [hneg a]) (by linarith [hneg b])
  unfold bisect
  rw [hp, Option.bind_some]
  unfold force
  simp only [pos, if_true]

/-- At the last density of a table linear in the logarithms a lookup fails or is exact. -/
theorem lookup_affine_top (A : Axes ℝ) (hA : A.Even) (tab : List ℝ) (c a b g : ℝ) (hs : Stores A tab fun i j k => c + a * A.r.at i + b * A.t.at j + g * A.y.at k) (lT ye : ℝ) :
    interp3 A tab A.r.hi lT ye = none ∨ interp3 A tab A.r.hi lT ye = some (c + a * A.r.hi + b * lT + g * ye) := by
  have h2 := hA.r.two
  have hcl : clampLrho A.r.lo A.r.hi A.r.hi = A.r.hi := by
    unfold clampLrho
    rw [if_neg (not_lt.2 (by linarith [hA.r.wide, tol_pos (K := ℝ)])), if_neg (lt_irrefl _)]
  have ei : trunc ((A.r.hi - A.r.lo) / A.r.d) = ((A.r.n - 1 : ℕ) : ℤ) := by
    have hp := hA.r.pos
    have : (A.r.hi - A.r.lo) / A.r.d = (((A.r.n : ℤ) - 1 : ℤ) : ℝ) := by
      rw [hA.r.top]; push_cast; field_simp; ring
    rw [this]
    unfold trunc
    rw [if_pos (by exact_mod_cast (by omega : (0 : ℤ) ≤ (A.r.n : ℤ) - 1)), Int.floor_intCast]
    omega
  obtain ⟨j, hj, ej, -⟩ := clamp_cell hA.t lT
  obtain ⟨k, hk, ek, -⟩ := clamp_cell hA.y ye
  have hat : A.r.lo + ((A.r.n - 1 : ℕ) : ℝ) * A.r.d = A.r.hi := by
    rw [hA.r.top, Nat.cast_sub (by omega)]
    push_cast
    ring
  have g0 := hs.get (A.r.n - 1)
  have r00 := g0 j k (by omega) (by omega) (by omega)
  have r10 := g0 (j + 1) k (by omega) (by omega) (by omega)
  have r01 := g0 j (k + 1) (by omega) (by omega) (by omega)
  have r11 := g0 (j + 1) (k + 1) (by omega) (by omega) (by omega)
  push_cast at r00 r10 r01 r11
  unfold interp3
  simp only [hcl, ei, ej, ek]
  rw [if_neg (by have := hA.r.pos.ne'; have := hA.t.pos.ne'; have := hA.y.pos.ne'; tauto)]
  rw [hA.r.node _ (by omega : A.r.n - 1 < A.r.n), hA.t.node j (by omega), hA.y.node k (by omega), hat]
  simp only [Option.bind_some, sub_self, zero_div, r00, r10, r01, r11]
  cases rd tab (elem A (((A.r.n - 1 : ℕ) : ℤ) + 1) j k) with
  | none => left; rfl
  | some v1 =>
    cases rd tab (elem A (((A.r.n - 1 : ℕ) : ℤ) + 1) ((j : ℤ) + 1) k) with
    | none => left; rfl
    | some v2 =>
      cases rd tab (elem A (((A.r.n - 1 : ℕ) : ℤ) + 1) j ((k : ℤ) + 1)) with
      | none => left; rfl
      | some v3 =>
        cases rd tab (elem A (((A.r.n - 1 : ℕ) : ℤ) + 1) ((j : ℤ) + 1) ((k : ℤ) + 1)) with
        | none => left; rfl
        | some v4 =>
          right
          simp only [Option.bind_some]
          congr 1
          have hat' : A.r.at (A.r.n - 1) = A.r.hi := hat
          rw [hat']
          have h3 := hA.t.pos
          have h4 := hA.y.pos
          simp only [Axis.at]
          push_cast
          field_simp
          ring

theorem box_catch (x : ℝ) : catchLrho box x = if x < 0 then 0 else if 3 < x then 3 - tol else x := rfl

theorem box_catch_nonneg (x : ℝ) : 0 ≤ catchLrho box x := by
  have ht := tol_pos (K := ℝ)
  have ht1 : (tol : ℝ) ≤ 1 := by unfold tol; norm_num
  rw [box_catch]
  split_ifs with h1 h2
  · exact le_refl _
  · linarith
  · exact not_lt.1 h1

theorem box_catch_ne (x : ℝ) (h : x ≠ 3) : catchLrho box x ≠ 3 := by
  have ht := tol_pos (K := ℝ)
  rw [box_catch]
  split_ifs with h1 h2
  · norm_num
  · linarith
  · exact h

theorem box_catch_in (x : ℝ) (h0 : 0 ≤ x) (h1 : x ≤ 3) : catchLrho box x = x := by
  rw [box_catch, if_neg (not_lt.2 h0), if_neg (not_lt.2 h1)]

theorem box_entF (lT ye x : ℝ) (h : x ≠ 3) : entF box lT ye x = 10 + catchLT box.A lT + 20 * catchYe box.A ye - catchLrho box x := by
  rw [entF, box_ent _ _ _ (box_catch_ne x h), Option.getD_some]
  ring

theorem box_entF_le (lT ye x : ℝ) (h : 0 ≤ 10 + catchLT box.A lT + 20 * catchYe box.A ye) : entF box lT ye x ≤ 10 + catchLT box.A lT + 20 * catchYe box.A ye := by
  by_cases hx : x = 3
  · rw [entF, hx, box_catch_in 3 (by norm_num) (le_refl _)]
    have e : (fun i j k : ℕ => (10 : ℝ) + (-1) * box.A.r.at i + 1 * box.A.t.at j + 20 * box.A.y.at k) = boxF := by
      funext i j k
      simp only [Axis.at, box, boxA, boxF]
      ring
    have h3 : box.A.r.hi = 3 := rfl
    rcases lookup_affine_top box.A box_even box.ent 10 (-1) 1 20 (by rw [e]; exact box_stores) (catchLT box.A lT) (catchYe box.A ye) with h1 | h1
    · rw [h3] at h1
      rw [h1]
      simpa using h
    · rw [h3] at h1
      rw [h1, Option.getD_some]
      linarith
  · rw [box_entF lT ye x hx]
    linarith [box_catch_nonneg x]

/-- The search for a density fails when the entropy is above all those in the row. -/
theorem box_miss (lT ye y : ℝ) (hC0 : 4 ≤ 10 + catchLT box.A lT + 20 * catchYe box.A ye) (hC1 : 10 + catchLT box.A lT + 20 * catchYe box.A ye ≤ 40)
    (hy : 10 + catchLT box.A lT + 20 * catchYe box.A ye + 1 ≤ y) : ∃ n0, ∀ n, n0 ≤ n → findLrho box lT ye y (3 / 2) n = some .fail := by
  have ht := tol_pos (K := ℝ)
  have ht1 : (tol : ℝ) ≤ 1 / 1000000 := by unfold tol; norm_num
  set C := 10 + catchLT box.A lT + 20 * catchYe box.A ye with hC
  have hle := fun x => box_entF_le lT ye x (by rw [← hC]; linarith)
  rw [← hC] at hle
  have hval : ∀ x, 0 ≤ x → x < 3 → entF box lT ye x = C - x := by
    intro x h0 h1
    rw [box_entF lT ye x h1.ne, ← hC, box_catch_in x h0 h1.le]
  have hlow : ∀ x, x < 0 → entF box lT ye x = C := by
    intro x h0
    have : catchLrho box x = 0 := by
      rw [box_catch, if_pos h0]
    rw [box_entF lT ye x (by linarith), ← hC, this, sub_zero]
  have hrel : ∀ x, 0 ≤ x → x < 3 → ¬ relErr (entF box lT ye) y (100 * tol) x < 100 * tol := by
    intro x h0 h1
    unfold relErr
    rw [hval x h0 h1, not_lt, abs_of_neg (by linarith), abs_of_pos (by linarith), le_div_iff₀ (by linarith)]
    nlinarith
  have h1 : secStep (entF box lT ye) y (100 * tol) (3 / 2) = some (C - y) := by
    unfold secStep
    have hdx : |(3 / 2 : ℝ) / 10000000| + 100 * tol ≤ 1 := by rw [abs_of_pos (by norm_num)]; linarith
    have hdx0 : 0 < |(3 / 2 : ℝ) / 10000000| + 100 * tol := by positivity
    generalize |(3 / 2 : ℝ) / 10000000| + 100 * tol = dx at hdx hdx0
    simp only [hval (3 / 2 + dx) (by linarith) (by linarith), hval (3 / 2 - dx) (by linarith) (by linarith), hval (3 / 2) (by norm_num) (by norm_num)]
    have e : (C - (3 / 2 + dx) - (C - (3 / 2 - dx))) / (2 * dx) = -1 := by
      rw [div_eq_iff (by linarith)]; ring
    rw [e, if_neg (by norm_num)]
    congr 1
    ring
  have h2 : secStep (entF box lT ye) y (100 * tol) (C - y) = none := by
    unfold secStep
    have hw : |(C - y) / 10000000| + 100 * tol ≤ (y - C) / 2 := by
      rw [abs_of_neg (by linarith)]; linarith
    have hw0 : 0 < |(C - y) / 10000000| + 100 * tol := by positivity
    generalize |(C - y) / 10000000| + 100 * tol = dx at hw hw0
    simp only [hlow (C - y + dx) (by linarith), hlow (C - y - dx) (by linarith), sub_self, zero_div, if_true]
  have hsec : secant (entF box lT ye) y (3 / 2) (100 * tol) (100 * tol) = .fail := by
    unfold secant
    have : secLoop (entF box lT ye) y (100 * tol) (SECANT_NITER_MAX - 1) (3 / 2) = none := by
      show secLoop (entF box lT ye) y (100 * tol) (8 + 1) (3 / 2) = none
      rw [secLoop, h1]
      simp only
      rw [if_pos]
      · show secLoop (entF box lT ye) y (100 * tol) (7 + 1) (C - y) = none
        rw [secLoop, h2]
      · rw [gt_iff_lt, abs_of_neg (by linarith), abs_of_neg (by linarith : C - y < 0), lt_div_iff₀ (by linarith)]
        nlinarith
    rw [this]
  obtain ⟨n0, hn0⟩ := bisect_fails (entF box lT ye) y (3 / 2) box.A.r.lo (box.A.r.hi - 2 * tol) (100 * tol) (by linarith) (fun x => by linarith [hle x])
  refine ⟨n0, fun n hn => ?_⟩
  have hb := bisect_mono _ _ _ _ _ _ n0 n hn _ hn0
  unfold findLrho
  rw [if_pos]
  · have g : clampGuess (3 / 2) box.A.r.lo (box.A.r.hi - 2 * tol) (100 * tol) = 3 / 2 := by
      have h3 : ¬ (3 / 2 : ℝ) ≥ box.A.r.hi - 2 * tol := by simp only [box, boxA]; linarith
      have h4 : ¬ (3 / 2 : ℝ) < box.A.r.lo := by simp only [box, boxA]; norm_num
      unfold clampGuess
      simp only [h3, if_false, h4]
    unfold findRoot
    rw [if_neg (hrel _ (by simp only [box, boxA]; linarith) (by simp only [box, boxA]; linarith)), if_neg (hrel _ (by simp [box, boxA]) (by simp [box, boxA])), g]
    simp only [hsec, hb, Option.map_some, rangeCheck]
  · intro x hx
    rw [box_ent _ _ _ hx]
    rfl

/-- The densities at which both searches fail. -/
theorem box_ends_miss (s ye : ℝ) (h0 : 7 ≤ s) (h1 : s < 33) (hy0 : 0 ≤ ye) (hy1 : ye < 1) (hy : 14 + 20 * ye ≤ s) :
    ∃ n0, ∀ n, n0 ≤ n → ends box s ye n = some (100 * tol, 3 - 100 * tol) := by
  have ht := tol_pos (K := ℝ)
  have ht1 : (tol : ℝ) ≤ 1 / 1000000 := by unfold tol; norm_num
  have cs : catchS box s = s := by rw [catchS, clamp, if_neg (by simp only [box]; linarith), if_neg (by simp only [box]; linarith)]
  have cy : catchYe box.A ye = ye := by rw [catchYe, clamp, if_neg (by simp only [box, boxA]; linarith), if_neg (by simp only [box, boxA]; linarith)]
  have c0 : catchLT box.A box.A.t.lo = 0 := by rw [catchLT, clamp, if_neg (by simp [box, boxA]), if_neg (by simp [box, boxA])]; rfl
  have c1 : catchLT box.A box.A.t.hi = 3 - tol := by rw [catchLT, clamp, if_neg (by simp [box, boxA]), if_pos (by simp [box, boxA])]; rfl
  obtain ⟨n1, hn1⟩ := box_miss box.A.t.lo ye s (by rw [c0, cy]; linarith) (by rw [c0, cy]; linarith) (by rw [c0, cy]; linarith)
  obtain ⟨n2, hn2⟩ := box_miss box.A.t.hi ye s (by rw [c1, cy]; linarith) (by rw [c1, cy]; linarith) (by rw [c1, cy]; linarith)
  refine ⟨max n1 n2, fun n hn => ?_⟩
  have g : (catchLrho box box.A.r.lo + catchLrho box box.A.r.hi) / 2 = 3 / 2 := by
    rw [show box.A.r.lo = 0 from rfl, show box.A.r.hi = 3 from rfl, box_catch_in 0 (le_refl _) (by norm_num), box_catch_in 3 (by norm_num) (le_refl _)]
    norm_num
  unfold ends
  simp only [cs, cy, g, hn1 n ((le_max_left _ _).trans hn), hn2 n ((le_max_right _ _).trans hn), Option.bind_some, Option.map_some, lowEnd, highEnd]
  rw [show box.A.r.lo = 0 from rfl, show box.A.r.hi = 3 from rfl, box_catch_in _ (by linarith) (by linarith), box_catch_in _ (by linarith) (by linarith), zero_add]

/-! ### The claim and where it fails -/

/-- The whole claim, for entropies and electron fractions within the bounds of a table whose entropy rises with temperature: nothing outside the table is read; where a curve is found,
its temperatures are in the table and have the entropy asked for; gas put on the curve at a density of the table has that entropy too. -/
def FullC146 : Prop :=
  ∀ (T : Tabs) (f : ℕ → ℕ → ℕ → ℝ) (m M : ℝ), Rising T.A f m M → Stores T.A T.ent f → (∃ f, Stores T.A T.hm1 f) → (∃ f, Stores T.A T.lhm1 f) → (∃ f, Stores T.A T.le f) →
    0 < T.Uunit → 0 < T.RHOunit → ∀ mem : List ℝ, mem.length = T.A.r.n → ∀ (s ye : ℝ) (n : ℕ), T.entMin ≤ s → s < T.entMax → T.A.y.lo ≤ ye → ye < T.A.y.hi →
      find1d T mem s ye n ≠ some .outside ∧
      ∀ c, find1d T mem s ye n = some (.ok c) →
        (∀ i : ℕ, c.imin ≤ i → (i : ℤ) ≤ c.imax → ∃ t, c.lT[i]? = some t ∧ T.A.t.lo ≤ t ∧ t ≤ T.A.t.hi ∧ |entropy T (T.A.r.at i) t ye - s| ≤ slack M s) ∧
        ∀ (hm1 guess : ℝ) (n' i : ℕ) (rho u : ℝ), i < T.A.r.n → gasOn T c hm1 guess n' = some (.ok (T.A.r.at i, rho, u)) →
          ∃ t le, interp3 T.A T.le (T.A.r.at i) t ye = some le ∧ rho * T.RHOunit = exp10 (T.A.r.at i) ∧ u * T.Uunit = exp10 le * (rho * T.RHOunit) ∧
            |entropy T (T.A.r.at i) t ye - s| ≤ slack M s

theorem box_hm1_some (lrho lT ye : ℝ) (h : lrho ≠ 3) : ∃ w, interp3 box.A box.hm1 lrho lT ye = some w := by
  obtain ⟨i, j, k, -, h, -⟩ := C33_lookup_partial box.A box_even box.hm1 _ (tabOf_stores boxA fun (_ j _ : ℕ) => exp10 (15 + j)) lrho lT ye h
  exact ⟨_, h⟩

theorem box_index (v : ℝ) (i : ℕ) (hi : i < 4) (h0 : ((i : ℝ) - 1) < v) (h1 : v ≤ i) : findIndex v box.A.r.x = i := by
  have e : box.A.r.x = [0, 1, 2, 3] := rfl
  rw [e]
  unfold findIndex Util.findIndexFrom Util.findIndexFrom Util.findIndexFrom Util.findIndexFrom
  interval_cases i <;> norm_num at h0 h1 ⊢
  · exact fun h => absurd h (not_lt.2 h1)
  · rw [if_neg (by linarith), if_pos h1]
  · rw [if_neg (by linarith), if_neg (by linarith), if_pos h1]
  · rw [if_neg (by linarith), if_neg (by linarith), if_neg (by linarith), if_pos h1]

theorem box_rd (i : ℕ) (hi : i < 4) : rd box.A.r.x i = some (i : ℝ) := by
  have := box_even.r.node i hi
  simpa [box, boxA] using this

open Classical in
/-- One pass of the loop on the table above. -/
theorem box_pass (i : ℕ) (hi : i < 3) (s : ℝ) (h0 : 7 ≤ s) (h1 : s < 33) (n : ℕ) (t : ℝ)
    (hlo : ¬ relErr (fun x : ℝ => 1 * x + (10 - (i : ℝ))) s (100 * tol) 0 < 100 * tol ∨ t = 0) (hhi : ¬ relErr (fun x : ℝ => 1 * x + (10 - (i : ℝ))) s (100 * tol) (3 - 2 * tol) < 100 * tol)
    (ht : t = s - 10 + i) (w : ℝ) (hw : interp3 box.A box.hm1 i t 0 = some w) (acc : Acc) :
    pass box s 0 n i acc = some (.ok (acc.1.set i t, if (w : WithTop ℝ) < acc.2.1 then (w : WithTop ℝ) else acc.2.1, if acc.2.2 < (w : WithBot ℝ) then (w : WithBot ℝ) else acc.2.2)) := by
  obtain ⟨t', e, e'⟩ := box_find0d i hi s h0 h1 (box.A.t.d / box.A.r.d * i) n
  have : t' = t := by
    rcases e' with ⟨e1 | e1, e2⟩ | e1
    · rcases hlo with hlo | hlo
      · rw [e1] at e2; exact absurd e2 hlo
      · rw [e1, hlo]
    · rw [e1] at e2; exact absurd e2 hhi
    · rw [e1, ht]
  rw [this] at e
  unfold pass
  rw [box_rd i (by omega)]
  simp only [e, Option.bind_some, hw, Option.map_some]

/-- **C146 (no table there).** In the table above no temperature has the entropy 25 at the electron fraction 0, at any density. The curve is found all the same, and the temperatures
stored for its two densities have logarithms 16 and 17, where the last of the table is 3. -/
theorem C146_extrapolated : (∀ lrho lT : ℝ, 0 ≤ lrho → lrho < 3 → lT ≤ 3 → entropy box lrho lT 0 < 25) ∧
    ∃ n0, ∀ n, n0 ≤ n → ∃ c, find1d box [0, 0, 0, 0] 25 0 n = some (.ok c) ∧ c.imin = 1 ∧ c.imax = 2 ∧ c.lT = [0, 16, 17, 0] := by
  have ht := tol_pos (K := ℝ)
  have ht1 : (tol : ℝ) ≤ 1 / 1000000 := by unfold tol; norm_num
  constructor
  · intro lrho lT h0 h1 h2
    rw [box_entropy _ _ _ h1.ne]
    linarith
  obtain ⟨n0, hn0⟩ := box_ends_miss 25 0 (by norm_num) (by norm_num) (le_refl _) (by norm_num) (by norm_num)
  refine ⟨n0, fun n hn => ?_⟩
  have cs : catchS box 25 = 25 := by rw [catchS, clamp, if_neg (by norm_num [box]), if_neg (by norm_num [box])]
  have cy : catchYe box.A 0 = 0 := by rw [catchYe, clamp, if_neg (by simp [box, boxA]), if_neg (by simp [box, boxA])]
  obtain ⟨w1, hw1⟩ := box_hm1_some 1 16 0 (by norm_num)
  obtain ⟨w2, hw2⟩ := box_hm1_some 2 17 0 (by norm_num)
  have rel : ∀ v : ℝ, 0 < v → v ≤ 20 → ¬ |v - 25| / (|v| + 100 * tol) < 100 * tol := by
    intro v h0 h1
    rw [not_lt, le_div_iff₀ (by positivity), abs_of_pos h0, abs_of_neg (by linarith)]
    nlinarith
  have p1 := fun acc => box_pass 1 (by norm_num) 25 (by norm_num) (by norm_num) n 16 (Or.inl (rel _ (by norm_num) (by norm_num))) (rel _ (by push_cast; linarith) (by push_cast; linarith))
    (by norm_num) w1 (by exact_mod_cast hw1) acc
  have p2 := fun acc => box_pass 2 (by norm_num) 25 (by norm_num) (by norm_num) n 17 (Or.inl (rel _ (by norm_num) (by norm_num))) (rel _ (by push_cast; linarith) (by push_cast; linarith))
    (by norm_num) w2 (by exact_mod_cast hw2) acc
  have i1 : firstIndex box (100 * tol) = 1 := by
    rw [firstIndex, box_index _ 1 (by norm_num) (by norm_num; exact ht) (by push_cast; linarith)]
    norm_num
  have i2 : lastIndex box (3 - 100 * tol) = 2 := by
    rw [lastIndex, box_index _ 3 (by norm_num) (by push_cast; linarith) (by push_cast; linarith)]
    norm_num [box, boxA]
  have r1 : rd box.A.r.x 1 = some 1 := by exact_mod_cast box_rd 1 (by norm_num)
  have r2 : rd box.A.r.x 2 = some 2 := by exact_mod_cast box_rd 2 (by norm_num)
  unfold find1d
  simp only [cs, cy, hn0 n hn, Option.bind_some, i1, i2, r1, r2]
  rw [show indices 1 2 = [1, 2] from rfl]
  simp only [loop, p1, p2, Option.bind_some, Option.map_some]
  exact ⟨_, rfl, rfl, rfl, rfl⟩

/-- **C146 (before the table).** For an entropy and an electron fraction just within their bounds the densities before the first of the table are read. -/
theorem C146_before_table : ∃ n0, ∀ n, n0 ≤ n → box.entMin ≤ 33 - tol ∧ 33 - tol < box.entMax ∧ box.A.y.lo ≤ 1 - tol ∧ 1 - tol < box.A.y.hi ∧
    find1d box [0, 0, 0, 0] (33 - tol) (1 - tol) n = some .outside := by
  have ht := tol_pos (K := ℝ)
  have ht1 : (tol : ℝ) ≤ 1 / 1000000 := by unfold tol; norm_num
  have cs : catchS box (33 - tol) = 33 - tol := by rw [catchS, clamp, if_neg (by simp only [box]; linarith), if_neg (by simp only [box]; linarith)]
  have cy : catchYe box.A (1 - tol) = 1 - tol := by rw [catchYe, clamp, if_neg (by simp only [box, boxA]; linarith), if_neg (by simp only [box, boxA]; linarith)]
  have c0 : catchLT box.A box.A.t.lo = 0 := by rw [catchLT, clamp, if_neg (by simp [box, boxA]), if_neg (by simp [box, boxA])]; rfl
  have c1 : catchLT box.A box.A.t.hi = 3 - tol := by rw [catchLT, clamp, if_neg (by simp [box, boxA]), if_pos (by simp [box, boxA])]; rfl
  obtain ⟨n0, hn0⟩ := box_miss box.A.t.lo (1 - tol) (33 - tol) (by rw [c0, cy]; linarith) (by rw [c0, cy]; linarith) (by rw [c0, cy]; linarith)
  refine ⟨n0, fun n hn => ⟨by simp only [box]; linarith, by simp only [box]; linarith, by simp only [box, boxA]; linarith, by simp only [box, boxA]; linarith, ?_⟩⟩
  have g : (catchLrho box box.A.r.lo + catchLrho box box.A.r.hi) / 2 = 3 / 2 := by
    rw [show box.A.r.lo = 0 from rfl, show box.A.r.hi = 3 from rfl, box_catch_in 0 (le_refl _) (by norm_num), box_catch_in 3 (by norm_num) (le_refl _)]
    norm_num
  have second : findLrho box box.A.t.hi (1 - tol) (33 - tol) (3 / 2) n = some (.ok 0) := by
    unfold findLrho
    rw [if_pos fun x hx => by rw [box_ent _ _ _ hx]; rfl]
    unfold findRoot
    rw [show box.A.r.lo = 0 from rfl, show box.A.r.hi = 3 from rfl, if_neg, if_pos]
    · rw [relErr, box_entF _ _ _ (by norm_num), c1, cy, box_catch_in _ (le_refl _) (by norm_num), div_lt_iff₀ (by positivity), abs_of_neg (by linarith), abs_of_pos (by linarith)]
      nlinarith
    · rw [relErr, box_entF _ _ _ (by linarith), c1, cy, box_catch_in _ (by linarith) (by linarith), not_lt, le_div_iff₀ (by positivity), abs_of_pos (by linarith), abs_of_neg (by linarith)]
      nlinarith
  have e : ends box (33 - tol) (1 - tol) n = some (100 * tol, 0) := by
    unfold ends
    simp only [cs, cy, g, hn0 n hn, second, Option.bind_some, Option.map_some, lowEnd, highEnd]
    rw [show box.A.r.lo = 0 from rfl, show box.A.r.hi = 3 from rfl, if_neg (by norm_num), box_catch_in _ (by linarith) (by linarith), box_catch_in _ (by linarith) (by linarith), zero_add]
  have i2 : lastIndex box 0 = -1 := by
    rw [lastIndex, box_index _ 0 (by norm_num) (by norm_num) (by norm_num)]
    norm_num [box, boxA]
  unfold find1d
  simp only [cs, cy, e, Option.bind_some, i2]
  rw [show rd box.A.r.x (-1) = none from rfl]
  cases rd box.A.r.x (firstIndex box (100 * tol)) <;> rfl

/-- The curve for entropy 10 at electron fraction 0. -/
noncomputable def boxCurve : Curve := ⟨10, 0, 0, 2, 0, 2, ((exp10 15 : ℝ) : WithTop ℝ), ((exp10 17 : ℝ) : WithBot ℝ), [0, 1, 2, 0]⟩

theorem exp10_lt' {x y : ℝ} (h : x < y) : exp10 x < exp10 y := Real.rpow_lt_rpow_of_exponent_lt (by norm_num) h

theorem box_curve (n : ℕ) : find1d box [0, 0, 0, 0] 10 0 n = some (.ok boxCurve) := by
  have ht := tol_pos (K := ℝ)
  have ht1 : (tol : ℝ) ≤ 1 / 1000000 := by unfold tol; norm_num
  have cs : catchS box 10 = 10 := by rw [catchS, clamp, if_neg (by norm_num [box]), if_neg (by norm_num [box])]
  have cy : catchYe box.A 0 = 0 := by rw [catchYe, clamp, if_neg (by simp [box, boxA]), if_neg (by simp [box, boxA])]
  have c0 : catchLT box.A box.A.t.lo = 0 := by rw [catchLT, clamp, if_neg (by simp [box, boxA]), if_neg (by simp [box, boxA])]; rfl
  have c1 : catchLT box.A box.A.t.hi = 3 - tol := by rw [catchLT, clamp, if_neg (by simp [box, boxA]), if_pos (by simp [box, boxA])]; rfl
  have g : (catchLrho box box.A.r.lo + catchLrho box box.A.r.hi) / 2 = 3 / 2 := by
    rw [show box.A.r.lo = 0 from rfl, show box.A.r.hi = 3 from rfl, box_catch_in 0 (le_refl _) (by norm_num), box_catch_in 3 (by norm_num) (le_refl _)]
    norm_num
  have first : findLrho box box.A.t.lo 0 10 (3 / 2) n = some (.ok 0) := by
    unfold findLrho
    rw [if_pos fun x hx => by rw [box_ent _ _ _ hx]; rfl]
    unfold findRoot
    rw [show box.A.r.lo = 0 from rfl, show box.A.r.hi = 3 from rfl, if_neg, if_pos]
    · rw [relErr, box_entF _ _ _ (by norm_num), show (0 : ℝ) = box.A.t.lo from rfl, c0, show box.A.t.lo = 0 from rfl, cy, box_catch_in _ (le_refl _) (by norm_num)]
      norm_num [tol]
    · rw [relErr, box_entF _ _ _ (by linarith), show (0 : ℝ) = box.A.t.lo from rfl, c0, show box.A.t.lo = 0 from rfl, cy, box_catch_in _ (by linarith) (by linarith), not_lt, le_div_iff₀ (by positivity), abs_of_pos (by linarith), abs_of_neg (by linarith)]
      nlinarith
  have second : findLrho box box.A.t.hi 0 10 (3 / 2) n = some (.ok (3 - 2 * tol)) := by
    unfold findLrho
    rw [if_pos fun x hx => by rw [box_ent _ _ _ hx]; rfl]
    unfold findRoot
    rw [if_pos]
    · rfl
    · rw [show box.A.r.hi = 3 from rfl, relErr, box_entF _ _ _ (by linarith), c1, cy, box_catch_in _ (by linarith) (by linarith), div_lt_iff₀ (by positivity), abs_of_pos (by linarith), abs_of_pos (by linarith)]
      nlinarith
  have e : ends box 10 0 n = some (0, 3 - 2 * tol) := by
    unfold ends
    simp only [cs, cy, g, first, second, Option.bind_some, Option.map_some, lowEnd, highEnd]
    rw [show box.A.r.lo = 0 from rfl, show box.A.r.hi = 3 from rfl, if_neg (by norm_num), if_neg (by linarith), box_catch_in _ (by linarith) (by linarith), box_catch_in _ (by linarith) (by linarith)]
  have i1 : firstIndex box 0 = 0 := by
    rw [firstIndex, box_index _ 0 (by norm_num) (by norm_num) (by norm_num)]
    norm_num
  have i2 : lastIndex box (3 - 2 * tol) = 2 := by
    rw [lastIndex, box_index _ 3 (by norm_num) (by push_cast; linarith) (by push_cast; linarith)]
    norm_num [box, boxA]
  have r1 : rd box.A.r.x 0 = some 0 := by exact_mod_cast box_rd 0 (by norm_num)
  have r2 : rd box.A.r.x 2 = some 2 := by exact_mod_cast box_rd 2 (by norm_num)
  have rel : ∀ v : ℝ, 0 < v → v ≤ 20 → 1 / 2 ≤ |v - 10| → ¬ |v - 10| / (|v| + 100 * tol) < 100 * tol := by
    intro v h0 h1 h2
    rw [not_lt, le_div_iff₀ (by positivity), abs_of_pos h0]
    nlinarith
  have w0 := box_hm1 0 0 (by norm_num) (by norm_num)
  have w1 := box_hm1 1 1 (by norm_num) (by norm_num)
  have w2 := box_hm1 2 2 (by norm_num) (by norm_num)
  have p0 := fun acc => box_pass 0 (by norm_num) 10 (by norm_num) (by norm_num) n 0 (Or.inr rfl) (rel _ (by push_cast; linarith) (by push_cast; linarith) (by rw [abs_of_pos (by push_cast; linarith)]; push_cast; linarith))
    (by norm_num) (exp10 15) (by simpa using w0) acc
  have p1 := fun acc => box_pass 1 (by norm_num) 10 (by norm_num) (by norm_num) n 1 (Or.inl (rel _ (by norm_num) (by norm_num) (by norm_num))) (rel _ (by push_cast; linarith) (by push_cast; linarith) (by rw [abs_of_pos (by push_cast; linarith)]; push_cast; linarith))
    (by norm_num) (exp10 16) (by norm_num at w1 ⊢; exact w1) acc
  have p2 := fun acc => box_pass 2 (by norm_num) 10 (by norm_num) (by norm_num) n 2 (Or.inl (rel _ (by norm_num) (by norm_num) (by norm_num))) (rel _ (by push_cast; linarith) (by push_cast; linarith) (by rw [abs_of_pos (by push_cast; linarith)]; push_cast; linarith))
    (by norm_num) (exp10 17) (by norm_num at w2 ⊢; exact w2) acc
  have l1 : exp10 15 < exp10 16 := exp10_lt' (by norm_num)
  have l2 : exp10 16 < exp10 17 := exp10_lt' (by norm_num)
  unfold find1d
  simp only [cs, cy, e, Option.bind_some, i1, i2, r1, r2]
  rw [show indices 0 2 = [0, 1, 2] from rfl]
  simp only [loop, p0, p1, p2, Option.bind_some, Option.map_some]
  rw [if_pos (WithTop.coe_lt_top _), if_pos (WithBot.bot_lt_coe _)]
  rw [if_neg (not_lt.2 (WithTop.coe_le_coe.2 l1.le)), if_pos (WithBot.coe_lt_coe.2 l1), if_neg (not_lt.2 (WithTop.coe_le_coe.2 (l1.trans l2).le)), if_pos (WithBot.coe_lt_coe.2 l2)]
  rfl

theorem box_temp_two : tempOn box boxCurve 2 = some (3 / 2) := by
  have e : trunc (((0 : ℤ) : ℝ) + (2 - 0) / ((2 - 0) / (((2 : ℤ) - 0 - 1 : ℤ) : ℝ))) = 1 := by
    unfold trunc
    norm_num
  change interp1d 2 0 2 0 2 ([0, 1, 2, 3] : List ℝ) [0, 1, 2, 0] = _
  unfold interp1d
  simp only [lt_irrefl, if_false, show ¬ (2 : ℝ) < 0 by norm_num, show ¬ (2 : ℤ) - 0 - 1 = 0 by norm_num, show ¬ (2 - 0 : ℝ) / (((2 : ℤ) - 0 - 1 : ℤ) : ℝ) = 0 by norm_num, e]
  norm_num [rd]
  rw [show ([0, 1, 2, 0] : List ℝ)[Int.toNat 2] = 2 from rfl]
  norm_num

theorem box_temp (x : ℝ) : ∃ t, tempOn box boxCurve x = some t := by
  change ∃ t, interp1d x 0 2 0 2 ([0, 1, 2, 3] : List ℝ) [0, 1, 2, 0] = some t
  unfold interp1d
  rw [if_neg (by norm_num : ¬ (2 : ℤ) - 0 - 1 = 0)]
  rw [if_neg (by norm_num)]
  have hS : (0 : ℝ) < SMALL := by unfold SMALL; norm_num
  have hS1 : (SMALL : ℝ) < 1 := by unfold SMALL; norm_num
  generalize hz : (if (if x < 0 then 0 else x) > 2 then 2 - SMALL else if x < 0 then 0 else x) = z
  have z0 : 0 ≤ z ∧ z ≤ 2 := by
    rw [← hz]
    split_ifs <;> constructor <;> linarith
  have hk : trunc (((0 : ℤ) : ℝ) + (z - 0) / ((2 - 0) / (((2 : ℤ) - 0 - 1 : ℤ) : ℝ))) = 0 ∨ trunc (((0 : ℤ) : ℝ) + (z - 0) / ((2 - 0) / (((2 : ℤ) - 0 - 1 : ℤ) : ℝ))) = 1 := by
    have e : ((0 : ℤ) : ℝ) + (z - 0) / ((2 - 0) / (((2 : ℤ) - 0 - 1 : ℤ) : ℝ)) = z / 2 := by norm_num
    rw [e]
    unfold trunc
    rw [if_pos (by linarith)]
    have h0 : 0 ≤ ⌊z / 2⌋ := Int.floor_nonneg.2 (by linarith)
    have h1 : ⌊z / 2⌋ < 2 := Int.floor_lt.2 (by norm_num; linarith)
    omega
  rcases hk with hk | hk <;> rw [hk] <;> exact ⟨_, rfl⟩

theorem box_gas (guess : ℝ) (n : ℕ) : gasOn box boxCurve (exp10 (33 / 2)) guess n = some (.ok (2, exp10 2, exp10 (31 / 2) * exp10 2)) := by
  have ht := tol_pos (K := ℝ)
  have l1 : exp10 15 < exp10 (33 / 2) := exp10_lt' (by norm_num)
  have l2 : exp10 (33 / 2) < exp10 18 := exp10_lt' (by norm_num)
  have tgt : target box boxCurve (exp10 (33 / 2)) = some (33 / 2) := by
    have c : catchH box (exp10 (33 / 2) * box.CL * box.CL) = exp10 (33 / 2) := by
      rw [show box.CL = 1 from rfl, mul_one, mul_one, catchH, clamp, show box.hMin = exp10 15 from rfl, show box.hMax = exp10 18 from rfl, if_neg (not_lt.2 l1.le), if_neg (not_le.2 l2)]
    unfold target
    rw [c]
    simp only [boxCurve]
    rw [show box.hShift = 0 from rfl, if_neg (not_lt.2 l1.le), add_zero, if_neg (not_le.2 (exp10_pos _)), log10_exp10]
  have hc : curveF box boxCurve 2 = 33 / 2 := by
    rw [curveF, box_temp_two, Option.bind_some, box_lhm1 _ _ _ (by norm_num)]
    norm_num
  unfold gasOn
  rw [tgt]
  simp only
  rw [if_pos]
  · unfold findRoot
    rw [show boxCurve.hi = 2 from rfl, if_pos]
    · have cy : catchYe box.A boxCurve.ye = 0 := by
        rw [show boxCurve.ye = 0 from rfl, catchYe, clamp, if_neg (by simp [box, boxA]), if_neg (by simp [box, boxA])]
      simp only [Option.bind_some, box_temp_two, cy, box_le 2 _ _ (by norm_num : (2 : ℝ) ≠ 3), Option.map_some, e2u, le2e, show box.RHOunit = 1 from rfl, show box.Uunit = 1 from rfl,
        div_one, sub_zero, add_zero]
      norm_num
    · rw [relErr, hc]
      simpa using ht
  · intro x hx
    obtain ⟨t, h⟩ := box_temp x
    rw [h, Option.bind_some, box_lhm1 _ _ _ hx]
    rfl

/-- **C146 (least enthalpy).** Where the enthalpies of a curve are above the least of the table: asked for the enthalpy which the code says is the least of the curve, it looks for gas of exactly
that enthalpy; asked for less, for gas of that and a bit. -/
theorem C146_least (T : Tabs) (c : Curve) (m h hm1 : ℝ) (hCL : T.CL ≠ 0) (hc : c.hMin = (m : WithTop ℝ)) (h0 : T.hMin < m) (h1 : m < T.hMax) (hs : 0 < m + T.hShift)
    (hh : hMinCurve T c = (h : WithTop ℝ)) (hle : hm1 ≤ h) :
    target T c hm1 = some (log10 ((if hm1 = h then m else m + tol) + T.hShift)) := by
  have ht := tol_pos (K := ℝ)
  have hp : 0 < T.CL * T.CL := mul_self_pos.2 hCL
  have e : h = m / (T.CL * T.CL) := by
    rw [hMinCurve, hc] at hh
    exact (WithTop.coe_injective hh).symm
  have em : h * T.CL * T.CL = m := by rw [e]; field_simp
  unfold target
  rw [hc]
  simp only
  split_ifs with a b b d d
  · linarith
  · rw [b, em, catchH, clamp, if_neg (not_lt.2 h0.le), if_neg (not_le.2 h1)] at a
    exact absurd a (lt_irrefl _)
  · rfl
  · linarith [not_lt.1 a]
  · subst d
    rw [em, catchH, clamp, if_neg (not_lt.2 h0.le), if_neg (not_le.2 h1)]
  · have hlt : hm1 * T.CL * T.CL < m := by rw [← em, mul_assoc, mul_assoc]; exact mul_lt_mul_of_pos_right (lt_of_le_of_ne hle d) hp
    rw [catchH, clamp] at a
    split_ifs at a <;> linarith

/-- The hypotheses can be met. -/
example : target box { boxCurve with hMin := ((exp10 16 : ℝ) : WithTop ℝ) } (exp10 16 - 1) = some (log10 (exp10 16 + tol + 0)) := by
  have := C146_least box { boxCurve with hMin := ((exp10 16 : ℝ) : WithTop ℝ) } (exp10 16) (exp10 16 / (1 * 1)) (exp10 16 - 1) (by norm_num [box]) rfl (exp10_lt' (by norm_num))
    (exp10_lt' (by norm_num)) (by rw [show box.hShift = 0 from rfl, add_zero]; exact exp10_pos _) rfl (by norm_num)
  rwa [if_neg (by norm_num)] at this

/-- **C146 does not hold**: on the curve of entropy 10 of the table above, gas of the enthalpy given is put at a density of the table with entropy 9.5. -/
theorem C146_full_false : ¬ FullC146 := by
  intro h
  obtain ⟨-, h2⟩ := h box boxF 1 1 box_rising box_stores ⟨_, tabOf_stores boxA fun (_ j _ : ℕ) => exp10 (15 + j)⟩ ⟨_, tabOf_stores boxA fun (_ j _ : ℕ) => 15 + (j : ℝ)⟩
    ⟨_, tabOf_stores boxA fun (_ j _ : ℕ) => 14 + (j : ℝ)⟩ (by norm_num [box]) (by norm_num [box]) [0, 0, 0, 0] rfl 10 0 0 (by norm_num [box]) (by norm_num [box]) (by norm_num [box, boxA])
    (by norm_num [box, boxA])
  have a2 : box.A.r.at 2 = 2 := by simp [Axis.at, box, boxA]
  obtain ⟨t, le, e1, e2, e3, e4⟩ := (h2 boxCurve (box_curve 0)).2 (exp10 (33 / 2)) 0 0 2 (exp10 2) (exp10 (31 / 2) * exp10 2) (by norm_num [box, boxA]) (by rw [a2]; exact box_gas 0 0)
  rw [a2] at e1 e4
  rw [box_le _ _ _ (by norm_num)] at e1
  rw [show box.RHOunit = 1 from rfl, show box.Uunit = 1 from rfl, mul_one, mul_one] at e3
  have e5 := mul_right_cancel₀ (exp10_pos 2).ne' e3
  have e6 : (31 / 2 : ℝ) = le := by
    have := congrArg log10 e5
    rwa [log10_exp10, log10_exp10] at this
  have e7 : 14 + t = le := Option.some.inj e1
  have e8 : t = 3 / 2 := by linarith
  rw [box_entropy _ _ _ (by norm_num), e8] at e4
  unfold slack tol at e4
  norm_num at e4

/-- The hypotheses of `C146_curve_partial` and `C146_gas_partial` are met: the curve above, with three densities, and gas on it. -/
example : find1d box [0, 0, 0, 0] 10 0 0 = some (.ok boxCurve) ∧ Rising box.A boxF 1 1 ∧ Stores box.A box.ent boxF ∧ box.entMin ≤ 10 ∧ 10 < box.entMax ∧ boxCurve.imin + 2 ≤ boxCurve.imax ∧
    gasOn box boxCurve (exp10 (33 / 2)) 0 0 = some (.ok (2, exp10 2, exp10 (31 / 2) * exp10 2)) :=
  ⟨box_curve 0, box_rising, box_stores, by norm_num [box], by norm_num [box], by simp [boxCurve], box_gas 0 0⟩

/-- `C146_spacing` on temperatures 0, 1, 2, 3 at unit spacing: three quarters of the way along, the line is followed for less. -/
example := C146_spacing 0 1 0 1 (9 / 4) 0 3 (le_refl _) (by norm_num) one_pos [0, 1, 2, 3] [0, 1, 2, 3] (fun m hm => by interval_cases m <;> norm_num [rd] <;> rfl)
  (fun m hm => by interval_cases m <;> norm_num [rd] <;> rfl) (by norm_num) (by norm_num)

end Nubhlight.EntropyCurve
