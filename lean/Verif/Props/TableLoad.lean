import Verif.Common
import Verif.Model.TableLoad

set_option autoImplicit false
set_option linter.unusedSectionVars false

/-!
C216: the file of an equation of state is taken as it is or rejected. A complete file is: every value ends up at the index the rest of the code looks for it. A file that lacks anything is not always
rejected: only the last read counts, so that the dataset `gamma` alone decides.
-/

namespace Nubhlight.TableLoad
variable {K : Type}

/-! ## Specification -/

/-- A three-dimensional dataset in the order of a file: electron fraction, temperature, density, the last the fastest. -/
def rowMajor (ny nt nr : ℕ) (g : ℕ → ℕ → ℕ → K) : List K :=
  (List.range ny).flatMap fun iY => (List.range nt).flatMap fun iT => (List.range nr).map fun ir => g iY iT ir

/-- A complete file with `nr`, `nt`, `ny` points. -/
structure Complete (f : File K) (nr nt ny : ℕ) (E : K) (x : String → List K) (g : String → ℕ → ℕ → ℕ → K) : Prop where
  hnr : f.ints "pointsrho" = some [(nr : ℤ)]
  hnt : f.ints "pointstemp" = some [(nt : ℤ)]
  hny : f.ints "pointsye" = some [(ny : ℤ)]
  hE : f.dbls "energy_shift" = some [E]
  logrho : f.dbls "logrho" = some (x "logrho") ∧ (x "logrho").length = nr
  logtemp : f.dbls "logtemp" = some (x "logtemp") ∧ (x "logtemp").length = nt
  ye : f.dbls "ye" = some (x "ye") ∧ (x "ye").length = ny
  hfields : ∀ n ∈ fields, f.dbls n = some (rowMajor ny nt nr (g n))

/-- The property: a run that goes on has in every array what the file has under that name. -/
def FullC216 : Prop :=
  ∀ (nan : Tabs ℚ → Bool) (f : File ℚ) (t : Tabs ℚ), load nan f = .ran t →
    ∀ n ∈ ["logrho", "logtemp", "ye"] ++ fields, ∃ l, f.dbls n = some l ∧ t.arr n = some l

/-! ## Proofs -/

theorem h5read_some {α : Type} (l : List α) (n : ℕ) : h5read (some l) n = if l.length = n then some l else none := rfl

theorem h5read_none {α : Type} (n : ℕ) : h5read (none : Option (List α)) n = none := rfl

theorem flatMap_get {α : Type} (n m : ℕ) (F : ℕ → List α) (hF : ∀ k < n, (F k).length = m) (k i : ℕ) (hk : k < n) (hi : i < m) :
    ((List.range n).flatMap F)[m * k + i]? = (F k)[i]? := by
  induction n with
  | zero => omega
  | succ n ih =>
    have hlen : ((List.range n).flatMap F).length = m * n := by
      rw [List.length_flatMap]
      have : (List.range n).map (fun k => (F k).length) = List.replicate n m := by
        rw [List.eq_replicate_iff]
        refine ⟨by simp, ?_⟩
        intro b hb
        obtain ⟨k, hk, rfl⟩ := List.mem_map.1 hb
        exact hF k (by have := List.mem_range.1 hk; omega)
      rw [this, List.sum_replicate, smul_eq_mul, mul_comm]
    rw [List.range_succ, List.flatMap_append, List.flatMap_singleton]
    rcases Nat.lt_succ_iff_lt_or_eq.1 hk with h | h
    · have hb : m * k + i < m * n := by
        have := Nat.mul_le_mul_left m h
        rw [Nat.mul_succ] at this
        omega
      rw [List.getElem?_append_left (by omega)]
      exact ih (fun k' hk' => hF k' (by omega)) h
    · subst h
      rw [List.getElem?_append_right (by omega), hlen]
      congr 1
      omega

theorem rowMajor_length (ny nt nr : ℕ) (g : ℕ → ℕ → ℕ → K) : (rowMajor ny nt nr g).length = ny * nt * nr := by
  simp [rowMajor, List.length_flatMap, mul_assoc]

/-- C216: the index the code computes for a point is where the file has it. -/
theorem C216_index (ny nt nr : ℕ) (g : ℕ → ℕ → ℕ → K) (ir iT iY : ℕ) (hr : ir < nr) (hT : iT < nt) (hY : iY < ny) :
    (rowMajor ny nt nr g)[eosElem nr nt ir iT iY]? = some (g iY iT ir) := by
  have h1 : eosElem nr nt ir iT iY = nt * nr * iY + (nr * iT + ir) := by rw [eosElem]; ring
  have hb : nr * iT + ir < nt * nr := by
    have := Nat.mul_le_mul_left nr hT
    rw [Nat.mul_succ, mul_comm nr nt] at this
    omega
  rw [h1, rowMajor, flatMap_get ny (nt * nr) _ (by intro k _; simp [List.length_flatMap]) iY _ hY hb, flatMap_get nt nr _ (by intro k _; simp) iT ir hT hr]
  simp [hr]

/-- No two points share an index. -/
theorem C216_index_injective (ny nt nr : ℕ) (a b : ℕ × ℕ × ℕ) (ha : a.1 < nr ∧ a.2.1 < nt ∧ a.2.2 < ny) (hb : b.1 < nr ∧ b.2.1 < nt ∧ b.2.2 < ny)
    (h : eosElem nr nt a.1 a.2.1 a.2.2 = eosElem nr nt b.1 b.2.1 b.2.2) : a = b := by
  have h1 := C216_index ny nt nr (fun iY iT ir => (ir, iT, iY)) a.1 a.2.1 a.2.2 ha.1 ha.2.1 ha.2.2
  have h2 := C216_index ny nt nr (fun iY iT ir => (ir, iT, iY)) b.1 b.2.1 b.2.2 hb.1 hb.2.1 hb.2.2
  rw [h, h2] at h1
  exact (Option.some.inj h1).symm

theorem readArr_sizes (f : File K) (t : Tabs K) (p : String × ℕ) :
    (readArr f t p).Nrho = t.Nrho ∧ (readArr f t p).NT = t.NT ∧ (readArr f t p).NYe = t.NYe ∧ (readArr f t p).eShift = t.eShift := by
  rw [readArr]
  split <;> exact ⟨rfl, rfl, rfl, rfl⟩

theorem fold_sizes (f : File K) (l : List (String × ℕ)) (t : Tabs K) :
    (l.foldl (readArr f) t).Nrho = t.Nrho ∧ (l.foldl (readArr f) t).NT = t.NT ∧ (l.foldl (readArr f) t).NYe = t.NYe ∧ (l.foldl (readArr f) t).eShift = t.eShift := by
  induction l generalizing t with
  | nil => exact ⟨rfl, rfl, rfl, rfl⟩
  | cons p l ih =>
    rw [List.foldl_cons]
    have h1 := ih (readArr f t p)
    have h2 := readArr_sizes f t p
    exact ⟨h1.1.trans h2.1, h1.2.1.trans h2.2.1, h1.2.2.1.trans h2.2.2.1, h1.2.2.2.trans h2.2.2.2⟩

theorem fold_other (f : File K) (l : List (String × ℕ)) (t : Tabs K) (n : String) (hn : n ∉ l.map Prod.fst) : (l.foldl (readArr f) t).arr n = t.arr n := by
  induction l generalizing t with
  | nil => rfl
  | cons p l ih =>
    rw [List.map_cons, List.mem_cons, not_or] at hn
    rw [List.foldl_cons, ih _ hn.2, readArr]
    split
    · show (if n = p.1 then _ else _) = _
      rw [if_neg hn.1]
    · rfl

theorem fold_read (f : File K) (l : List (String × ℕ)) (t : Tabs K) (hnd : (l.map Prod.fst).Nodup) (p : String × ℕ) (hp : p ∈ l) (h0 : t.arr p.1 = none) :
    (l.foldl (readArr f) t).arr p.1 = h5read (f.dbls p.1) p.2 := by
  induction l generalizing t with
  | nil => exact absurd hp List.not_mem_nil
  | cons q l ih =>
    rw [List.map_cons, List.nodup_cons] at hnd
    rw [List.foldl_cons]
    rcases List.mem_cons.1 hp with rfl | hp
    · rw [fold_other f l _ _ hnd.1, readArr]
      cases h : h5read (f.dbls p.1) p.2 with
      | none => exact h0
      | some v => show (if p.1 = p.1 then _ else _) = _; rw [if_pos rfl]
    · have hne : p.1 ≠ q.1 := fun he => hnd.1 (he ▸ List.mem_map_of_mem hp)
      refine ih _ hnd.2 hp ?_
      rw [readArr]
      split
      · show (if p.1 = q.1 then _ else _) = _
        rw [if_neg hne, h0]
      · exact h0

/-- The whole list of reads. -/
def reads [Zero K] (f : File K) : List (String × ℕ) := axes (readHead f) ++ fields.map fun n => (n, tabSize (readHead f))

theorem reads_names [Zero K] (f : File K) : (reads f).map Prod.fst = ["logrho", "logtemp", "ye"] ++ fields := by
  simp [reads, axes, fields]

theorem reads_nodup [Zero K] (f : File K) : ((reads f).map Prod.fst).Nodup := by
  rw [reads_names]
  simp [fields]

theorem readAll_arr [Zero K] (f : File K) (p : String × ℕ) (hp : p ∈ reads f) : (readAll f).arr p.1 = h5read (f.dbls p.1) p.2 :=
  fold_read f (reads f) (readHead f) (reads_nodup f) p hp rfl

theorem readAll_failed [Zero K] (f : File K) : (readAll f).failed = (h5read (f.dbls "gamma") (tabSize (readHead f))).isNone := by
  have hl : reads f = (reads f).dropLast ++ [("gamma", tabSize (readHead f))] := by simp [reads, axes, fields]
  have : readAll f = (reads f).foldl (readArr f) (readHead f) := rfl
  rw [this, hl, List.foldl_append, List.foldl_cons, List.foldl_nil, readArr]
  cases h5read (f.dbls "gamma") (tabSize (readHead f)) <;> rfl

theorem readAll_sizes [Zero K] (f : File K) :
    (readAll f).Nrho = (readHead f).Nrho ∧ (readAll f).NT = (readHead f).NT ∧ (readAll f).NYe = (readHead f).NYe ∧ (readAll f).eShift = (readHead f).eShift :=
  fold_sizes f (reads f) (readHead f)

/-- C216: exactly when a file is accepted: sizes of at least one, a log enthalpy that is a number, and `gamma` as large as the sizes say. Nothing is asked of the other arrays. -/
theorem C216_accepted_iff [Zero K] (nan : Tabs K → Bool) (f : File K) (t : Tabs K) :
    load nan f = .ran t ↔ t = readAll f ∧ 1 ≤ (readHead f).Nrho ∧ 1 ≤ (readHead f).NT ∧ 1 ≤ (readHead f).NYe ∧ nan (readAll f) = false ∧
      ∃ l, f.dbls "gamma" = some l ∧ l.length = tabSize (readHead f) := by
  obtain ⟨h1, h2, h3, -⟩ := readAll_sizes f
  have hg : (readAll f).failed = false ↔ ∃ l, f.dbls "gamma" = some l ∧ l.length = tabSize (readHead f) := by
    rw [readAll_failed]
    cases hd : f.dbls "gamma" with
    | none => simp [h5read_none]
    | some l => by_cases hl : l.length = tabSize (readHead f) <;> simp [h5read_some, hl]
  rw [load, h1, h2, h3, ← hg]
  by_cases hs : (readHead f).Nrho < 1 ∨ (readHead f).NT < 1 ∨ (readHead f).NYe < 1
  · rw [if_pos hs]
    constructor
    · intro h; exact absurd h (by simp)
    · rintro ⟨-, h4, h5, h6, -⟩; omega
  · rw [if_neg hs]
    push Not at hs
    cases hn : nan (readAll f) <;> cases hf : (readAll f).failed <;> simp [hs, eq_comm]

/-- C216: a complete file is taken as it is: sizes, shift, and every array. -/
theorem C216_loaded [Zero K] (nan : Tabs K → Bool) (f : File K) (nr nt ny : ℕ) (E : K) (x : String → List K) (g : String → ℕ → ℕ → ℕ → K) (h : Complete f nr nt ny E x g)
    (hr : 1 ≤ nr) (ht : 1 ≤ nt) (hy : 1 ≤ ny) (hn : nan (readAll f) = false) :
    ∃ t, load nan f = .ran t ∧ t.Nrho = nr ∧ t.NT = nt ∧ t.NYe = ny ∧ t.eShift = E ∧ (∀ n ∈ ["logrho", "logtemp", "ye"], t.arr n = some (x n)) ∧
      ∀ n ∈ fields, ∃ l, t.arr n = some l ∧ l.length = ny * nt * nr ∧
        ∀ ir iT iY, ir < nr → iT < nt → iY < ny → l[eosElem nr nt ir iT iY]? = some (g n iY iT ir) := by
  have e1 : (readHead f).Nrho = nr := by simp [readHead, readInt, h5read, h.hnr]
  have e2 : (readHead f).NT = nt := by simp [readHead, readInt, h5read, h.hnt]
  have e3 : (readHead f).NYe = ny := by simp [readHead, readInt, h5read, h.hny]
  have e4 : (readHead f).eShift = E := by simp [readHead, readShift, h5read, h.hE]
  have hsz : tabSize (readHead f) = ny * nt * nr := by
    rw [tabSize, e1, e2, e3]
    norm_cast
  obtain ⟨s1, s2, s3, s4⟩ := readAll_sizes f
  have hfield : ∀ n ∈ fields, (readAll f).arr n = some (rowMajor ny nt nr (g n)) := by
    intro n hnf
    have hp : (n, tabSize (readHead f)) ∈ reads f := List.mem_append_right _ (List.mem_map.2 ⟨n, hnf, rfl⟩)
    have := readAll_arr f _ hp
    rw [this, h.hfields n hnf, hsz, h5read_some]
    rw [if_pos (rowMajor_length ny nt nr (g n))]
  have hgm : "gamma" ∈ fields := by simp [fields]
  refine ⟨readAll f, (C216_accepted_iff nan f _).2 ⟨rfl, by omega, by omega, by omega, hn, _, h.hfields _ hgm, by rw [rowMajor_length, hsz]⟩, s1.trans e1, s2.trans e2, s3.trans e3,
    s4.trans e4, ?_, ?_⟩
  · intro n hn'
    simp only [List.mem_cons, List.not_mem_nil, or_false] at hn'
    rcases hn' with rfl | rfl | rfl
    · have := readAll_arr f ("logrho", (readHead f).Nrho.toNat) (by simp [reads, axes])
      rw [this, h.logrho.1, e1, h5read_some]
      simp [h.logrho.2]
    · have := readAll_arr f ("logtemp", (readHead f).NT.toNat) (by simp [reads, axes])
      rw [this, h.logtemp.1, e2, h5read_some]
      simp [h.logtemp.2]
    · have := readAll_arr f ("ye", (readHead f).NYe.toNat) (by simp [reads, axes])
      rw [this, h.ye.1, e3, h5read_some]
      simp [h.ye.2]
  · intro n hnf
    exact ⟨_, hfield n hnf, rowMajor_length _ _ _ _, fun ir iT iY a b c => C216_index ny nt nr (g n) ir iT iY a b c⟩

/-- C216: without `gamma`, or with one of another size, no run goes on. -/
theorem C216_gamma [Zero K] (nan : Tabs K → Bool) (f : File K) (h : ∀ l, f.dbls "gamma" = some l → l.length ≠ tabSize (readHead f)) (t : Tabs K) : load nan f ≠ .ran t := by
  intro hl
  obtain ⟨-, -, -, -, -, l, h1, h2⟩ := (C216_accepted_iff nan f t).1 hl
  exact h l h1 h2

/-- C216: what is missing elsewhere goes unnoticed: if a run goes on and a dataset of the file is missing or of another size than the sizes say, the array is memory that nothing has written. -/
theorem C216_unnoticed [Zero K] (nan : Tabs K → Bool) (f : File K) (t : Tabs K) (h : load nan f = .ran t) (p : String × ℕ) (hp : p ∈ reads f) :
    t.arr p.1 = none ↔ ∀ l, f.dbls p.1 = some l → l.length ≠ p.2 := by
  obtain ⟨rfl, -⟩ := (C216_accepted_iff nan f t).1 h
  rw [readAll_arr f p hp]
  cases hd : f.dbls p.1 with
  | none => simp [h5read_none]
  | some l => by_cases hl : l.length = p.2 <;> simp [h5read_some, hl]

/-- C216: a shift of the energy that is missing is taken as zero, and the run goes on. -/
theorem C216_shift_missing [Zero K] (nan : Tabs K → Bool) (f : File K) (t : Tabs K) (h : load nan f = .ran t) (hE : f.dbls "energy_shift" = none) : t.eShift = 0 := by
  obtain ⟨rfl, -⟩ := (C216_accepted_iff nan f t).1 h
  rw [(readAll_sizes f).2.2.2]
  simp [readHead, readShift, h5read, hE]

/-- A file of two points in each direction that lacks the mean mass number of nuclei. -/
def noAbar : File ℚ :=
  { ints := fun n => if n = "pointsrho" ∨ n = "pointstemp" ∨ n = "pointsye" then some [2] else none
    dbls := fun n => if n = "Abar" then none else if n = "energy_shift" then some [1] else if n ∈ fields then some [0, 1, 2, 3, 4, 5, 6, 7] else some [0, 1] }

/-- C216: the property does not hold: the file without the mean mass number is accepted, and the array for it is memory that nothing has written. -/
theorem C216_full_false : ¬ FullC216 := by
  intro h
  have hl : load (fun _ => false) noAbar = .ran (readAll noAbar) := by
    refine (C216_accepted_iff _ _ _).2 ⟨rfl, ?_, ?_, ?_, rfl, [0, 1, 2, 3, 4, 5, 6, 7], ?_, ?_⟩ <;> simp [readHead, readInt, h5read, noAbar, fields, tabSize]
  obtain ⟨l, h1, -⟩ := h _ _ _ hl "Abar" (by simp [fields])
  simp [noAbar] at h1

/-- A complete file: the same with the missing dataset. -/
example : ∃ (f : File ℚ) (x : String → List ℚ) (g : String → ℕ → ℕ → ℕ → ℚ), Complete f 2 2 2 1 x g :=
  ⟨{ ints := fun n => if n = "pointsrho" ∨ n = "pointstemp" ∨ n = "pointsye" then some [2] else none
     dbls := fun n => if n = "energy_shift" then some [1] else if n ∈ fields then some [0, 1, 2, 3, 4, 5, 6, 7] else some [0, 1] },
    fun _ => [0, 1], fun _ iY iT ir => 4 * iY + 2 * iT + ir,
    by simp, by simp, by simp, by simp, by simp [fields], by simp [fields], by simp [fields], by
      intro n hn
      have h1 : n ≠ "energy_shift" := by rintro rfl; simp [fields] at hn
      simp only [h1, if_false, hn, if_true]
      decide +kernel⟩

end Nubhlight.TableLoad
