import Verif.Common
import Verif.Model.SkyNet
import Verif.Props.TracerFiles
import Mathlib.Algebra.BigOperators.Group.List.Basic
import Mathlib.Data.List.GetD
import Mathlib.Tactic.IntervalCases
import Mathlib.Tactic.Linarith
import Mathlib.Tactic.Ring
import Mathlib.Tactic.FieldSimp

set_option autoImplicit false
set_option linter.unusedSectionVars false

/-!
C222: the abundances collected from the files of all tracers are their averages weighted by mass, for every number of processes with which the script ends; with more processes than files it never does.
C223: the table of mass fractions is written on its side.
-/

namespace Nubhlight.SkyNet

open TracerFiles (arraySplit cut arraySplit_flatten)

/-! ## Specification -/

/-- Entry of a list of rows. -/
def at' (l : List (ℚ × ℚ)) (j : ℕ) : ℚ × ℚ := l.getD j (0, 0)

/-- Mass and rows of a file that counts: it and its metadata can be read, its tracer is among those wanted, and it has `n` rows. -/
def counts (n : ℕ) (cut : Option (List ℤ)) (f : SFile) : Option (ℚ × List (ℚ × ℚ)) :=
  match f.data, f.info with
  | some d, some (i, m) => if (∀ c, cut = some c → i ∈ c) ∧ d.length = n then some (m, d) else none
  | _, _ => none

/-- Total mass of the files that count. -/
def massOf (n : ℕ) (cut : Option (List ℤ)) (fs : List SFile) : ℚ := ((fs.filterMap (counts n cut)).map fun u => u.1).sum

/-- Sums of mass times abundance over the files that count. -/
def sum1 (n : ℕ) (cut : Option (List ℤ)) (fs : List SFile) (j : ℕ) : ℚ := ((fs.filterMap (counts n cut)).map fun u => u.1 * (at' u.2 j).1).sum
def sum2 (n : ℕ) (cut : Option (List ℤ)) (fs : List SFile) (j : ℕ) : ℚ := ((fs.filterMap (counts n cut)).map fun u => u.1 * (at' u.2 j).2).sum

/-- The averages, weighted by mass. -/
def averages (n : ℕ) (cut : Option (List ℤ)) (fs : List SFile) : List (ℚ × ℚ) := (List.range n).map fun j => (sum1 n cut fs j / massOf n cut fs, sum2 n cut fs j / massOf n cut fs)

/-- A file and its metadata can be read, and it has `n` rows. -/
def Good (n : ℕ) (f : SFile) : Prop := (∃ d, f.data = some d ∧ d.length = n) ∧ f.info.isSome

/-! ## Proofs -/

theorem at_zip (m : ℚ) (a d : List (ℚ × ℚ)) (h : a.length = d.length) (j : ℕ) :
    at' (List.zipWith (fun x y => (x.1 + m * y.1, x.2 + m * y.2)) a d) j = ((at' a j).1 + m * (at' d j).1, (at' a j).2 + m * (at' d j).2) := by
  unfold at'
  by_cases hj : j < a.length
  · have hd : j < d.length := h ▸ hj
    rw [List.getD_eq_getElem _ _ (by rw [List.length_zipWith]; omega), List.getD_eq_getElem _ _ hj, List.getD_eq_getElem _ _ hd, List.getElem_zipWith]
  · rw [List.getD_eq_default _ _ (by rw [List.length_zipWith]; omega), List.getD_eq_default _ _ (by omega), List.getD_eq_default _ _ (by omega)]
    simp

theorem at_zeros (n j : ℕ) : at' (zeros n) j = (0, 0) := by
  unfold at' zeros
  by_cases hj : j < n
  · rw [List.getD_eq_getElem _ _ (by simpa using hj), List.getElem_replicate]
  · rw [List.getD_eq_default _ _ (by simp; omega)]

theorem massOf_cons (n : ℕ) (cut : Option (List ℤ)) (f : SFile) (fs : List SFile) : massOf n cut (f :: fs) = massOf n cut [f] + massOf n cut fs := by
  unfold massOf
  rw [List.filterMap_cons]
  cases h : counts n cut f <;> simp [h]

theorem sum1_cons (n : ℕ) (cut : Option (List ℤ)) (f : SFile) (fs : List SFile) (j : ℕ) : sum1 n cut (f :: fs) j = sum1 n cut [f] j + sum1 n cut fs j := by
  unfold sum1
  rw [List.filterMap_cons]
  cases h : counts n cut f <;> simp [h]

theorem sum2_cons (n : ℕ) (cut : Option (List ℤ)) (f : SFile) (fs : List SFile) (j : ℕ) : sum2 n cut (f :: fs) j = sum2 n cut [f] j + sum2 n cut fs j := by
  unfold sum2
  rw [List.filterMap_cons]
  cases h : counts n cut f <;> simp [h]

theorem massOf_append (n : ℕ) (cut : Option (List ℤ)) (a b : List SFile) : massOf n cut (a ++ b) = massOf n cut a + massOf n cut b := by
  simp [massOf, List.filterMap_append]

theorem sum1_append (n : ℕ) (cut : Option (List ℤ)) (a b : List SFile) (j : ℕ) : sum1 n cut (a ++ b) j = sum1 n cut a j + sum1 n cut b j := by
  simp [sum1, List.filterMap_append]

theorem sum2_append (n : ℕ) (cut : Option (List ℤ)) (a b : List SFile) (j : ℕ) : sum2 n cut (a ++ b) j = sum2 n cut a j + sum2 n cut b j := by
  simp [sum2, List.filterMap_append]

theorem counts_eq (n : ℕ) (cut : Option (List ℤ)) (f : SFile) (d : List (ℚ × ℚ)) (i : ℤ) (m : ℚ) (hd : f.data = some d) (hi : f.info = some (i, m)) :
    counts n cut f = if (∀ c, cut = some c → i ∈ c) ∧ d.length = n then some (m, d) else none := by
  unfold counts
  rw [hd, hi]

theorem counts_none (n : ℕ) (cut : Option (List ℤ)) (f : SFile) (h : f.data = none ∨ f.info = none) : counts n cut f = none := by
  unfold counts
  rcases h with h | h
  · rw [h]
  · rw [h]
    cases f.data <;> rfl

theorem one_eq (cut : Option (List ℤ)) (s : Acc) (f : SFile) (d : List (ℚ × ℚ)) (i : ℤ) (m : ℚ) (hd : f.data = some d) (hi : f.info = some (i, m)) :
    one cut s f = if cut.all fun c => c.contains i then (match addRows s.rows m d with
      | some r => some ⟨r, s.mass + m, true⟩
      | none => some ⟨s.rows, s.mass, true⟩) else some ⟨s.rows, s.mass, true⟩ := by
  unfold one
  rw [hd, hi]
  rfl

theorem one_none (cut : Option (List ℤ)) (s : Acc) (f : SFile) (h : f.data = none ∨ f.info = none) : one cut s f = if s.bound then some s else none := by
  unfold one
  rcases h with h | h
  · rw [h]
  · rw [h]
    cases f.data <;> rfl

theorem cut_iff (cut : Option (List ℤ)) (i : ℤ) : (cut.all fun c => c.contains i) = true ↔ ∀ c, cut = some c → i ∈ c := by
  cases cut with
  | none => simp
  | some c => simp

theorem one_sums (cut : Option (List ℤ)) (n : ℕ) (s s' : Acc) (f : SFile) (hn : s.rows.length = n) (h : one cut s f = some s') :
    s'.rows.length = n ∧ s'.mass = s.mass + massOf n cut [f] ∧ ∀ j, (at' s'.rows j).1 = (at' s.rows j).1 + sum1 n cut [f] j ∧ (at' s'.rows j).2 = (at' s.rows j).2 + sum2 n cut [f] j := by
  have none_case : counts n cut f = none → massOf n cut [f] = 0 ∧ ∀ j, sum1 n cut [f] j = 0 ∧ sum2 n cut [f] j = 0 := by
    intro hc
    simp [massOf, sum1, sum2, hc]
  by_cases hb : f.data = none ∨ f.info = none
  · obtain ⟨h0, h1⟩ := none_case (counts_none n cut f hb)
    rw [one_none cut s f hb] at h
    split_ifs at h
    rw [← Option.some.inj h]
    refine ⟨hn, by rw [h0, add_zero], fun j => by rw [(h1 j).1, (h1 j).2, add_zero, add_zero]; exact ⟨rfl, rfl⟩⟩
  · push Not at hb
    obtain ⟨d, hd⟩ := Option.ne_none_iff_exists'.1 hb.1
    obtain ⟨⟨i, m⟩, hi⟩ := Option.ne_none_iff_exists'.1 hb.2
    have hc := counts_eq n cut f d i m hd hi
    rw [one_eq cut s f d i m hd hi] at h
    by_cases hcut : (cut.all fun c => c.contains i) = true
    · rw [if_pos hcut] at h
      unfold addRows at h
      by_cases hl : s.rows.length = d.length
      · rw [if_pos hl] at h
        rw [if_pos ⟨(cut_iff cut i).1 hcut, by omega⟩] at hc
        rw [← Option.some.inj h]
        dsimp only
        refine ⟨by rw [List.length_zipWith]; omega, by simp [massOf, hc], fun j => ?_⟩
        rw [at_zip m _ _ hl]
        constructor
        · simp [sum1, hc]
        · simp [sum2, hc]
      · rw [if_neg hl] at h
        rw [if_neg (by rintro ⟨_, h2⟩; omega)] at hc
        obtain ⟨h0, h1⟩ := none_case hc
        rw [← Option.some.inj h]
        refine ⟨hn, by rw [h0, add_zero], fun j => by rw [(h1 j).1, (h1 j).2, add_zero, add_zero]; exact ⟨rfl, rfl⟩⟩
    · rw [if_neg hcut] at h
      rw [if_neg (by rintro ⟨h1, _⟩; exact hcut ((cut_iff cut i).2 h1))] at hc
      obtain ⟨h0, h1⟩ := none_case hc
      rw [← Option.some.inj h]
      refine ⟨hn, by rw [h0, add_zero], fun j => by rw [(h1 j).1, (h1 j).2, add_zero, add_zero]; exact ⟨rfl, rfl⟩⟩

theorem fold_sums (cut : Option (List ℤ)) (n : ℕ) (fs : List SFile) (s s' : Acc) (hn : s.rows.length = n) (h : fs.foldlM (one cut) s = some s') :
    s'.rows.length = n ∧ s'.mass = s.mass + massOf n cut fs ∧ ∀ j, (at' s'.rows j).1 = (at' s.rows j).1 + sum1 n cut fs j ∧ (at' s'.rows j).2 = (at' s.rows j).2 + sum2 n cut fs j := by
  induction fs generalizing s with
  | nil =>
    simp only [List.foldlM_nil, pure] at h
    rw [← Option.some.inj h]
    simp [massOf, sum1, sum2, hn]
  | cons f fs ih =>
    rw [List.foldlM_cons] at h
    obtain ⟨s1, h1, h2⟩ := Option.bind_eq_some_iff.1 h
    obtain ⟨a1, a2, a3⟩ := one_sums cut n s s1 f hn h1
    obtain ⟨b1, b2, b3⟩ := ih s1 a1 h2
    refine ⟨b1, by rw [b2, a2, massOf_cons n cut f fs]; ring, fun j => ?_⟩
    rw [(b3 j).1, (b3 j).2, (a3 j).1, (a3 j).2, sum1_cons n cut f fs, sum2_cons n cut f fs]
    constructor <;> ring

theorem worker_sums (cut : Option (List ℤ)) (fs : List SFile) (s : Acc) (h : worker cut fs = some s) :
    s.mass = massOf s.rows.length cut fs ∧ ∀ j, (at' s.rows j).1 = sum1 s.rows.length cut fs j ∧ (at' s.rows j).2 = sum2 s.rows.length cut fs j := by
  unfold worker at h
  cases fs with
  | nil => simp at h
  | cons f fs =>
    dsimp only at h
    cases hd : f.data with
    | none => rw [hd] at h; simp at h
    | some d =>
      rw [hd] at h
      dsimp only at h
      obtain ⟨a1, a2, a3⟩ := fold_sums cut d.length (f :: fs) _ s (by simp [zeros]) h
      rw [a1]
      refine ⟨by rw [a2]; ring, fun j => ?_⟩
      rw [(a3 j).1, (a3 j).2, at_zeros]
      simp

/-- The sums of the main process. -/
theorem join_sums (cut : Option (List ℤ)) (n : ℕ) (pieces : List (List SFile)) (work : List Acc) (hw : pieces.mapM (worker cut) = some work) (s s' : List (ℚ × ℚ) × ℚ) (hn : s.1.length = n) (h : work.foldlM join s = some s') :
    s'.1.length = n ∧ s'.2 = s.2 + massOf n cut pieces.flatten ∧ ∀ j, (at' s'.1 j).1 = (at' s.1 j).1 + sum1 n cut pieces.flatten j ∧ (at' s'.1 j).2 = (at' s.1 j).2 + sum2 n cut pieces.flatten j := by
  induction pieces generalizing work s with
  | nil =>
    simp only [List.mapM_nil, pure] at hw
    rw [← Option.some.inj hw] at h
    simp only [List.foldlM_nil, pure] at h
    rw [← Option.some.inj h]
    simp [massOf, sum1, sum2, hn]
  | cons p ps ih =>
    rw [List.mapM_cons] at hw
    obtain ⟨w, h1, hw2⟩ := Option.bind_eq_some_iff.1 hw
    obtain ⟨ws, h2, h3⟩ := Option.bind_eq_some_iff.1 hw2
    simp only [pure] at h3
    rw [← Option.some.inj h3, List.foldlM_cons] at h
    obtain ⟨t, h4, h5⟩ := Option.bind_eq_some_iff.1 h
    unfold join addRows at h4
    by_cases hl : s.1.length = w.rows.length
    · rw [if_pos hl] at h4
      simp only [Option.map_some] at h4
      obtain ⟨a1, a2⟩ := worker_sums cut p w h1
      have hwn : w.rows.length = n := by omega
      rw [hwn] at a1 a2
      have ht := Option.some.inj h4
      obtain ⟨b1, b2, b3⟩ := ih ws h2 t (by rw [← ht]; simp only [List.length_zipWith]; omega) h5
      refine ⟨b1, ?_, fun j => ?_⟩
      · rw [b2, ← ht]
        dsimp only
        rw [a1, List.flatten_cons, massOf_append]
        ring
      · rw [(b3 j).1, (b3 j).2, ← ht]
        dsimp only
        rw [at_zip 1 _ _ hl, (a2 j).1, (a2 j).2, List.flatten_cons, sum1_append, sum2_append]
        constructor <;> ring
    · rw [if_neg hl] at h4
      simp at h4

/-- **C222 (averages).** Whenever the script ends with abundances, with whatever number of processes and whichever files it skipped on the way: they are the averages, weighted by mass, over the files that
can be read, have metadata, are wanted and have as many rows as the first; and the mass is the mass of those. -/
theorem C222_averages (cut : Option (List ℤ)) (p : ℕ) (hp : 1 ≤ p) (f : SFile) (fs : List SFile) (d : List (ℚ × ℚ)) (hd : f.data = some d) (rows : List (ℚ × ℚ)) (m : ℚ)
    (h : accumulate cut p (f :: fs) = .done rows m) : m ≠ 0 ∧ m = massOf d.length cut (f :: fs) ∧ rows = averages d.length cut (f :: fs) := by
  unfold accumulate at h
  cases hs : sums cut p (f :: fs) with
  | none => rw [hs] at h; simp at h
  | some s =>
    rw [hs] at h
    dsimp only at h
    split_ifs at h with h0
    obtain ⟨hr, hm⟩ := Result.done.inj h
    unfold sums at hs
    dsimp only at hs
    rw [hd] at hs
    dsimp only at hs
    obtain ⟨work, h1, h2⟩ := Option.bind_eq_some_iff.1 hs
    obtain ⟨a1, a2, a3⟩ := join_sums cut d.length _ work h1 _ s (by simp [zeros]) h2
    rw [arraySplit_flatten p hp] at a2 a3
    dsimp only at a2 a3
    rw [zero_add] at a2
    refine ⟨hm ▸ h0, by rw [← hm, a2], ?_⟩
    rw [← hr]
    unfold averages
    apply List.ext_getElem
    · simp [a1]
    · intro j g1 g2
      rw [List.getElem_map, List.getElem_map, List.getElem_range]
      have hj : j < s.1.length := by simpa using g1
      have e : s.1[j] = at' s.1 j := by
        unfold at'
        rw [List.getD_eq_getElem _ _ hj]
      rw [e, (a3 j).1, (a3 j).2, at_zeros, a2]
      simp

theorem one_good (cut : Option (List ℤ)) (n : ℕ) (s : Acc) (f : SFile) (hf : Good n f) : ∃ s', one cut s f = some s' := by
  obtain ⟨⟨d, hd, _⟩, hi⟩ := hf
  obtain ⟨⟨i, m⟩, hi⟩ := Option.isSome_iff_exists.1 hi
  rw [one_eq cut s f d i m hd hi]
  split_ifs
  · cases addRows s.rows m d <;> exact ⟨_, rfl⟩
  · exact ⟨_, rfl⟩

theorem fold_good (cut : Option (List ℤ)) (n : ℕ) (fs : List SFile) (hf : ∀ f ∈ fs, Good n f) (s : Acc) : ∃ s', fs.foldlM (one cut) s = some s' := by
  induction fs generalizing s with
  | nil => exact ⟨s, rfl⟩
  | cons f fs ih =>
    obtain ⟨s1, h1⟩ := one_good cut n s f (hf f (by simp))
    obtain ⟨s2, h2⟩ := ih (fun g hg => hf g (by simp [hg])) s1
    refine ⟨s2, ?_⟩
    rw [List.foldlM_cons, h1]
    exact h2

theorem worker_good (cut : Option (List ℤ)) (n : ℕ) (fs : List SFile) (hne : fs ≠ []) (hf : ∀ f ∈ fs, Good n f) : ∃ s, worker cut fs = some s ∧ s.rows.length = n := by
  cases fs with
  | nil => exact absurd rfl hne
  | cons f fs =>
    obtain ⟨⟨d, hd, hl⟩, _⟩ := hf f (by simp)
    obtain ⟨s, hs⟩ := fold_good cut n (f :: fs) hf ⟨zeros d.length, 0, false⟩
    refine ⟨s, ?_, ?_⟩
    · unfold worker
      dsimp only
      rw [hd]
      exact hs
    · exact hl ▸ (fold_sums cut d.length (f :: fs) _ s (by simp [zeros]) hs).1

theorem all_good (cut : Option (List ℤ)) (n : ℕ) (pieces : List (List SFile)) (hf : ∀ p ∈ pieces, p ≠ [] ∧ ∀ f ∈ p, Good n f) (s : List (ℚ × ℚ) × ℚ) (hs : s.1.length = n) :
    ∃ work s', pieces.mapM (worker cut) = some work ∧ work.foldlM join s = some s' := by
  induction pieces generalizing s with
  | nil => exact ⟨[], s, rfl, rfl⟩
  | cons p ps ih =>
    obtain ⟨w, hw, hl⟩ := worker_good cut n p (hf p (by simp)).1 (hf p (by simp)).2
    have hj : ∃ t, join s w = some t ∧ t.1.length = n := by
      unfold join addRows
      rw [if_pos (by omega)]
      exact ⟨_, rfl, by simp only [List.length_zipWith]; omega⟩
    obtain ⟨t, ht, htl⟩ := hj
    obtain ⟨work, s', h1, h2⟩ := ih (fun q hq => hf q (by simp [hq])) t htl
    refine ⟨w :: work, s', ?_, ?_⟩
    · rw [List.mapM_cons, hw, h1]
      rfl
    · rw [List.foldlM_cons, ht]
      exact h2

theorem cut_nonempty {β : Type*} (ns : List ℕ) (hn : ∀ n ∈ ns, 0 < n) : ∀ l : List β, ns.sum = l.length → ∀ c ∈ cut ns l, c ≠ [] := by
  induction ns with
  | nil => intro l _ c hc; simp [cut] at hc
  | cons n ns ih =>
    intro l h c hc
    have h0 := hn n (by simp)
    simp only [List.sum_cons] at h
    rw [cut] at hc
    rcases List.mem_cons.1 hc with rfl | hc
    · intro he
      have := congrArg List.length he
      simp only [List.length_take, List.length_nil] at this
      omega
    · exact ih (fun m hm => hn m (by simp [hm])) (l.drop n) (by simp only [List.length_drop]; omega) c hc

theorem split_sum (p k : ℕ) (hp : 1 ≤ p) : (List.replicate (k % p) (k / p + 1) ++ List.replicate (p - k % p) (k / p)).sum = k := by
  simp only [List.sum_append, List.sum_replicate, smul_eq_mul]
  have h1 := Nat.div_add_mod k p
  have h2 := Nat.mod_lt k (by omega : p > 0)
  obtain ⟨d, hd⟩ : ∃ d, p = k % p + d := ⟨p - k % p, by omega⟩
  have e : p - k % p = d := by omega
  rw [e]
  calc k % p * (k / p + 1) + d * (k / p) = (k % p + d) * (k / p) + k % p := by ring
    _ = p * (k / p) + k % p := by rw [← hd]
    _ = k := h1

theorem split_nonempty {β : Type*} (p : ℕ) (hp : 1 ≤ p) (l : List β) (hl : p ≤ l.length) : ∀ c ∈ arraySplit p l, c ≠ [] := by
  have h1 : 0 < l.length / p := Nat.div_pos hl (by omega)
  refine cut_nonempty _ ?_ l (split_sum p l.length hp)
  intro n hn
  rcases List.mem_append.1 hn with h | h
  · rw [List.eq_of_mem_replicate h]; omega
  · rw [List.eq_of_mem_replicate h]; exact h1

/-- **C222 (ends).** If all files and their metadata can be read and have the same number of rows, there are not more processes than files, and the total mass is not zero, then the script ends with abundances. -/
theorem C222_ends (cut : Option (List ℤ)) (p : ℕ) (hp : 1 ≤ p) (n : ℕ) (fs : List SFile) (hl : p ≤ fs.length) (hf : ∀ f ∈ fs, Good n f) (hm : massOf n cut fs ≠ 0) :
    accumulate cut p fs = .done (averages n cut fs) (massOf n cut fs) := by
  cases fs with
  | nil => simp at hl; omega
  | cons f fs =>
    obtain ⟨⟨d, hd, hdl⟩, _⟩ := hf f (by simp)
    subst hdl
    have hpieces : ∀ c ∈ arraySplit p (f :: fs), c ≠ [] ∧ ∀ g ∈ c, Good d.length g := by
      intro c hc
      refine ⟨split_nonempty p hp _ hl c hc, fun g hg => hf g ?_⟩
      rw [← arraySplit_flatten p hp (f :: fs)]
      exact List.mem_flatten.2 ⟨c, hc, hg⟩
    obtain ⟨work, s', h1, h2⟩ := all_good cut d.length _ hpieces (zeros d.length, 0) (by simp [zeros])
    have hs : sums cut p (f :: fs) = some s' := by
      unfold sums
      dsimp only
      rw [hd]
      dsimp only
      rw [h1]
      exact h2
    obtain ⟨a1, a2, a3⟩ := join_sums cut d.length _ work h1 _ s' (by simp [zeros]) h2
    rw [arraySplit_flatten p hp] at a2
    dsimp only at a2
    rw [zero_add] at a2
    have hd2 : ∃ rows m, accumulate cut p (f :: fs) = .done rows m := by
      unfold accumulate
      rw [hs]
      dsimp only
      rw [if_neg (by rw [a2]; exact hm)]
      exact ⟨_, _, rfl⟩
    obtain ⟨rows, m, hdone⟩ := hd2
    obtain ⟨_, b2, b3⟩ := C222_averages cut p hp f fs d hd rows m hdone
    rw [hdone, b2, b3]

theorem mapM_none {α β : Type*} (g : α → Option β) (l : List α) (a : α) (ha : a ∈ l) (h : g a = none) : l.mapM g = none := by
  induction l with
  | nil => simp at ha
  | cons b l ih =>
    rw [List.mapM_cons]
    rcases List.mem_cons.1 ha with rfl | ha
    · rw [h]; rfl
    · rw [ih ha]
      cases g b <;> rfl

theorem cut_empty {β : Type*} (a b : ℕ) (hb : 0 < b) : ∀ l : List β, l.length = a → ([] : List β) ∈ cut (List.replicate a 1 ++ List.replicate b 0) l := by
  induction a with
  | zero =>
    intro l hl
    obtain ⟨c, rfl⟩ : ∃ c, b = c + 1 := ⟨b - 1, by omega⟩
    simp [List.replicate_succ, cut]
  | succ a ih =>
    intro l hl
    rw [List.replicate_succ, List.cons_append, cut]
    exact List.mem_cons_of_mem _ (ih (l.drop 1) (by simp; omega))

/-- **C222 (more processes than files).** With more processes than files the script fails, whatever the files: some process gets no file and takes the first of none. -/
theorem C222_too_many (cut : Option (List ℤ)) (p : ℕ) (fs : List SFile) (hl : fs.length < p) : accumulate cut p fs = .crash := by
  have hmem : ([] : List SFile) ∈ arraySplit p fs := by
    unfold arraySplit
    rw [Nat.mod_eq_of_lt hl, Nat.div_eq_of_lt hl]
    exact cut_empty fs.length (p - fs.length) (by omega) fs rfl
  have hm := mapM_none (worker cut) _ _ hmem rfl
  unfold accumulate sums
  cases fs with
  | nil => rfl
  | cons f fs =>
    dsimp only
    cases f.data with
    | none => rfl
    | some d =>
      dsimp only
      rw [hm]
      rfl

/-- **C222 (missing metadata).** Files without metadata are skipped, unless a process has one as its first: then the script fails. -/
theorem C222_first_missing (cut : Option (List ℤ)) (p : ℕ) (fs : List SFile) (c : List SFile) (f : SFile) (hc : f :: c ∈ arraySplit p fs) (hi : f.info = none) : accumulate cut p fs = .crash := by
  have hw : worker cut (f :: c) = none := by
    unfold worker
    dsimp only
    cases hd : f.data with
    | none => rfl
    | some d =>
      dsimp only
      rw [List.foldlM_cons, one_none cut _ f (Or.inr hi)]
      rfl
  have hm := mapM_none (worker cut) _ _ hc hw
  unfold accumulate sums
  cases fs with
  | nil => rfl
  | cons f fs =>
    dsimp only
    cases f.data with
    | none => rfl
    | some d =>
      dsimp only
      rw [hm]
      rfl

/-- The full property: with every number of processes the files yield their averages. -/
def FullC222 : Prop := ∀ (cut : Option (List ℤ)) (p n : ℕ) (fs : List SFile), 1 ≤ p → fs ≠ [] → (∀ f ∈ fs, Good n f) → massOf n cut fs ≠ 0 → accumulate cut p fs = .done (averages n cut fs) (massOf n cut fs)

def wFile : SFile := ⟨some [(1, 2), (3, 4)], some (7, 1 / 2)⟩

theorem wGood : Good 2 wFile := ⟨⟨_, rfl, rfl⟩, rfl⟩

/-- **C222.** It fails: one file, two processes. -/
theorem C222_full_false : ¬FullC222 := by
  intro h
  have h1 := h none 2 2 [wFile] (by decide) (by simp) (by simpa using wGood) (by decide +kernel)
  rw [C222_too_many none 2 [wFile] (by decide)] at h1
  simp at h1

/-- A case: three files of different masses, two processes. -/
example : accumulate none 2 [wFile, ⟨some [(0, 1), (5, 0)], some (8, 1)⟩, ⟨some [(1, 1), (1, 1)], some (9, 1 / 2)⟩] = .done [(1 / 2, 5 / 4), (7 / 2, 5 / 4)] 2 := by
  have h := C222_ends none 2 (by decide) 2 [wFile, ⟨some [(0, 1), (5, 0)], some (8, 1)⟩, ⟨some [(1, 1), (1, 1)], some (9, 1 / 2)⟩] (by decide)
    (by
      intro f hf
      simp only [List.mem_cons, List.not_mem_nil, or_false] at hf
      rcases hf with rfl | rfl | rfl
      · exact wGood
      · exact ⟨⟨_, rfl, rfl⟩, rfl⟩
      · exact ⟨⟨_, rfl, rfl⟩, rfl⟩) (by decide +kernel)
  rw [h]
  congr 1 <;> decide +kernel

/-! ## C223: mass fractions -/

/-- The rows the file should have: identifier, mass and mass fractions of every tracer whose files can be read. -/
def intended (dirs : List (List MFile)) : List (List ℚ) := dirs.flatten.filterMap fun f => f.vals.map fun v => [v.1, v.2.1, v.2.2.1, v.2.2.2]

/-- The full property. -/
def FullC223 : Prop := ∀ dirs : List (List MFile), (∀ d ∈ dirs, d ≠ [] ∧ ∀ f ∈ d, ∃ v, f.vals = some v ∧ 0 < v.1) → dirs ≠ [] → massFile dirs = some (intended dirs)

theorem mapM_rows {α : Type*} (g : α → Option (List (List ℚ))) (P : List ℚ → Prop) (l : List α) (hg : ∀ a ∈ l, ∀ t, g a = some t → ∀ r ∈ t, P r) (t : List (List (List ℚ))) (h : l.mapM g = some t) :
    ∀ r ∈ t.flatten, P r := by
  induction l generalizing t with
  | nil =>
    simp only [List.mapM_nil, pure] at h
    rw [← Option.some.inj h]
    simp
  | cons a l ih =>
    rw [List.mapM_cons] at h
    obtain ⟨x, h1, h2⟩ := Option.bind_eq_some_iff.1 h
    obtain ⟨xs, h3, h4⟩ := Option.bind_eq_some_iff.1 h2
    simp only [pure] at h4
    rw [← Option.some.inj h4]
    intro r hr
    rw [List.flatten_cons] at hr
    rcases List.mem_append.1 hr with hr | hr
    · exact hg a (by simp) x h1 r hr
    · exact ih (fun b hb => hg b (by simp [hb])) xs h3 r hr

/-- **C223 (shape).** Every row that is written has one number for each file of the first directory, not four; and a file is written only if all directories have equally many files. -/
theorem C223_shape (d : List MFile) (ds : List (List MFile)) (t : List (List ℚ)) (h : massFile (d :: ds) = some t) : (∀ e ∈ ds, e.length = d.length) ∧ ∀ r ∈ t, r.length = d.length := by
  unfold massFile at h
  dsimp only at h
  split_ifs at h with hw
  have hw' : ∀ e ∈ ds, e.length = d.length := by
    intro e he
    have := List.all_eq_true.1 hw e he
    exact of_decide_eq_true this
  refine ⟨hw', ?_⟩
  obtain ⟨ts, h1, h2⟩ := Option.map_eq_some_iff.1 h
  rw [← h2]
  refine mapM_rows allInDir (fun r => r.length = d.length) (d :: ds) ?_ ts h1
  intro e he u hu r hr
  have hel : e.length = d.length := by
    rcases List.mem_cons.1 he with rfl | he
    · rfl
    · exact hw' e he
  unfold allInDir at hu
  split_ifs at hu
  rw [← Option.some.inj hu] at hr
  have hr' := (List.mem_filter.1 hr).1
  unfold transpose4 at hr'
  obtain ⟨c, _, rfl⟩ := List.mem_map.1 hr'
  simp [hel]

/-- **C223 (never as intended).** Unless the first directory has exactly four files, the file never has the rows it should. -/
theorem C223_never (d : List MFile) (ds : List (List MFile)) (hd : d.length ≠ 4) (hne : intended (d :: ds) ≠ []) : massFile (d :: ds) ≠ some (intended (d :: ds)) := by
  intro h
  obtain ⟨_, h2⟩ := C223_shape d ds _ h
  obtain ⟨r, hr⟩ := List.exists_mem_of_ne_nil _ hne
  have h3 := h2 r hr
  unfold intended at hr
  obtain ⟨f, _, hf⟩ := List.mem_filterMap.1 hr
  obtain ⟨v, _, hv⟩ := Option.map_eq_some_iff.1 hf
  rw [← hv] at h3
  simp at h3
  omega

/-- **C223 (one directory).** What is written for a directory whose files can all be read and whose first tracer has positive values: four rows, of the identifiers, the masses and the two mass fractions. -/
theorem C223_transposed_partial (v : ℚ × ℚ × ℚ × ℚ) (vs : List (ℚ × ℚ × ℚ × ℚ)) (h1 : 0 < v.1) (h2 : 0 < v.2.1) (h3 : 0 < v.2.2.1) (h4 : 0 < v.2.2.2) :
    massFile [(v :: vs).map fun v => ⟨some v⟩] = some [(v :: vs).map fun v => v.1, (v :: vs).map fun v => v.2.1, (v :: vs).map fun v => v.2.2.1, (v :: vs).map fun v => v.2.2.2] := by
  unfold massFile
  dsimp only
  rw [if_pos (by simp)]
  have e : allInDir ((v :: vs).map fun v => (⟨some v⟩ : MFile)) = some [(v :: vs).map fun v => v.1, (v :: vs).map fun v => v.2.1, (v :: vs).map fun v => v.2.2.1, (v :: vs).map fun v => v.2.2.2] := by
    unfold allInDir
    rw [if_neg (by simp)]
    have ht : transpose4 (((v :: vs).map fun v => (⟨some v⟩ : MFile)).map getOnce) = [(v :: vs).map fun v => v.1, (v :: vs).map fun v => v.2.1, (v :: vs).map fun v => v.2.2.1, (v :: vs).map fun v => v.2.2.2] := by
      unfold transpose4
      rw [List.map_map, show List.range 4 = [0, 1, 2, 3] from rfl]
      simp only [List.map_cons, List.map_nil, List.map_map]
      rfl
    rw [ht]
    simp [h1, h2, h3, h4]
  rw [List.mapM_cons, e]
  rfl

/-- **C223 (first file).** If the files of the first tracer of a directory cannot be read, nothing of that directory is written. -/
theorem C223_first_failed (f : MFile) (fs : List MFile) (h : f.vals = none) : allInDir (f :: fs) = some [] := by
  unfold allInDir
  rw [if_neg (by simp), List.map_cons]
  have hg : getOnce f = [-1, -1, -1, -1] := by
    unfold getOnce
    rw [h]
  congr 1
  rw [hg, List.filter_eq_nil_iff]
  intro r hr
  unfold transpose4 at hr
  obtain ⟨c, hc, rfl⟩ := List.mem_map.1 hr
  have hc4 := List.mem_range.1 hc
  interval_cases c <;> simp

/-- **C223.** The full property fails: one tracer. -/
theorem C223_full_false : ¬FullC223 := by
  intro h
  have h1 := h [[⟨some (1, 1, 1, 1)⟩]] (by simp) (by simp)
  exact C223_never [⟨some (1, 1, 1, 1)⟩] [] (by decide) (by decide +kernel) h1

/-- A tracer with identifier zero as the first of its directory: the row of identifiers is missing. -/
example : massFile [[⟨some (0, 1, 1 / 2, 1 / 4)⟩, ⟨some (1, 2, 1 / 2, 1 / 8)⟩]] = some [[1, 2], [1 / 2, 1 / 2], [1 / 4, 1 / 8]] := by decide +kernel

end Nubhlight.SkyNet
