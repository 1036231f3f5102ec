import Verif.Model.SumMessages
import Verif.Props.Messages
import Verif.Props.RadSync

set_option autoImplicit false
set_option linter.unusedSectionVars false

/-! # C136: the sums over ghost zones complete and have the same result under every schedule -/

namespace Nubhlight.SumMessages
open Nubhlight.Bounds Nubhlight.RadSync Nubhlight.Messages

variable {V : Type*} [AddCommMonoid V] {d1 d2 d3 : Dim}

/-! ## Sends and receives correspond -/

theorem agree_swap (d : Fin 3) (upper : Bool) : Agree (swap (V := V) d1 d2 d3 d upper) := by
  refine ⟨?_, ?_, ?_⟩
  · intro a b src tag pay store h
    simp only [swap, Instr.xchg.injEq] at h
    obtain ⟨h1, -, rfl, -⟩ := h
    have e : (if upper then right d1 d2 d3 d b else left d1 d2 d3 d b) = some a := by
      cases upper
      · simpa using (left_right d a b).1 (by simpa using h1)
      · simpa using (left_right d b a).2 (by simpa using h1)
    exact ⟨_, _, _, congrArg (fun s => Instr.xchg _ s _ _ _) e⟩
  · intro a b dst tag pay store h
    simp only [swap, Instr.xchg.injEq] at h
    obtain ⟨-, h1, rfl, -⟩ := h
    have e : (if upper then left d1 d2 d3 d a else right d1 d2 d3 d a) = some b := by
      cases upper
      · simpa using (left_right d a b).2 (by simpa using h1)
      · simpa using (left_right d b a).1 (by simpa using h1)
    exact ⟨_, _, _, congrArg (fun s => Instr.xchg s _ _ _ _) e⟩
  · intro a b kind f h
    simp [swap] at h

theorem direction_agree (d : Fin 3) : ∀ I ∈ direction (V := V) d1 d2 d3 d, Agree I := by
  intro I hI
  simp only [direction, List.mem_cons, List.not_mem_nil, or_false] at hI
  rcases hI with rfl | rfl | rfl
  · exact agree_swap d false
  · exact agree_swap d true
  · exact agree_comp fun _ => reduce d1 d2 d3

theorem sum_agree (w : ℤ → ℤ → ℤ → Bool) : ∀ I ∈ sum (V := V) d1 d2 d3 w, Agree I := by
  intro I hI
  simp only [sum, List.mem_append, List.mem_singleton] at hI
  rcases hI with ((rfl | h) | h) | h
  · exact agree_comp fun _ => wipe w
  · exact direction_agree 0 I h
  · exact direction_agree 1 I h
  · exact direction_agree 2 I h

theorem sumClear_agree : ∀ I ∈ sumClear (V := V) d1 d2 d3, Agree I := by
  intro I hI
  simp only [sumClear, List.mem_append, List.mem_singleton] at hI
  rcases hI with h | rfl
  · exact sum_agree _ I h
  · exact agree_comp fun _ => clear d1 d2 d3

theorem sums_agree (w : ℤ → ℤ → ℤ → Bool) (fs : List (ℤ → ℤ → ℤ → Arr V → Arr V)) : ∀ I ∈ sums d1 d2 d3 w fs, Agree I := by
  intro I hI
  simp only [sums, List.mem_flatMap, List.mem_append, List.mem_singleton] at hI
  obtain ⟨f, -, rfl | h⟩ := hI
  · exact agree_comp fun (r : Ranks d1 d2 d3) => fun m : Mem V => { m with arr := f r.1 r.2.1 r.2.2 m.arr }
  · exact sum_agree _ I h

/-! ## One direction on all ranks -/

/-- Arrays of the ranks are the array over all ranks. -/
def Same (A : Ranks d1 d2 d3 → Mem V) (W : World V) : Prop := ∀ (r : Ranks d1 d2 d3) i j k, (A r).arr i j k = W r.1 r.2.1 r.2.2 i j k

/-- Nothing in the buffers where the reduction takes from. -/
def Empty (A : Ranks d1 d2 d3 → Mem V) : Prop := ∀ r i j k, ext d1 i → ext d2 j → ext d3 k → (A r).buf i j k = 0

theorem toFin_some {d : Dim} {c : ℤ} (h : 0 ≤ c ∧ c < d.C) : ∃ f : Fin d.C.toNat, toFin d (some c) = some f ∧ (f : ℤ) = c := by
  refine ⟨⟨c.toNat, by omega⟩, ?_, by simp; omega⟩
  show (if h : 0 ≤ c ∧ c < d.C then some (⟨c.toNat, by omega⟩ : Fin d.C.toNat) else none) = _
  rw [dif_pos h]

/-- Buffer after both exchanges. -/
theorem two_swaps (d : Fin 3) (A : Ranks d1 d2 d3 → Mem V) (r : Ranks d1 d2 d3) (i j k : ℤ) :
    (exec (swap d1 d2 d3 d true) (exec (swap d1 d2 d3 d false) A) r).arr = (A r).arr ∧
    (exec (swap d1 d2 d3 d true) (exec (swap d1 d2 d3 d false) A) r).buf i j k =
      (if sheet d1 d2 d3 d (size d1 d2 d3 d + NG - NGR) i j k then right d1 d2 d3 d r else none).elim
        ((if sheet d1 d2 d3 d NG i j k then left d1 d2 d3 d r else none).elim ((A r).buf i j k) fun o => moved (A o).arr d (size d1 d2 d3 d) i j k)
        fun o => moved (A o).arr d (-size d1 d2 d3 d) i j k := by
  have harr : ∀ o, (exec (swap d1 d2 d3 d false) A o).arr = (A o).arr := by
    intro o
    simp only [exec, swap, Bool.false_eq_true, if_false]
    cases left d1 d2 d3 d o <;> rfl
  have hbuf : ∀ i j k, (exec (swap d1 d2 d3 d false) A r).buf i j k =
      (if sheet d1 d2 d3 d NG i j k then left d1 d2 d3 d r else none).elim ((A r).buf i j k) fun o => moved (A o).arr d (size d1 d2 d3 d) i j k := by
    intro i j k
    simp only [exec, swap, Bool.false_eq_true, if_false]
    cases left d1 d2 d3 d r with
    | none => simp
    | some o => simp only [Option.bind_some]; split_ifs <;> rfl
  generalize exec (swap d1 d2 d3 d false) A = B at harr hbuf
  constructor
  · rw [← harr]
    simp only [exec, swap, if_true]
    cases right d1 d2 d3 d r <;> rfl
  · rw [← hbuf]
    simp only [exec, swap, if_true]
    cases right d1 d2 d3 d r with
    | none => simp
    | some o => simp only [Option.bind_some, harr]; split_ifs <;> rfl

/-- Buffer along one line of zones. -/
theorem line_received {R : Type*} (d : Dim) (c : Fin d.C.toNat) (e : Fin d.C.toNat → R) (g : R → ℤ → V) (f : ℤ → ℤ → V) (h : ∀ c i, g (e c) i = f c i)
    (z : V) (hz : z = 0) (i : ℤ) (p q : Bool) (hp : p = true ↔ d.N + NG - NGR ≤ i ∧ i < d.N + NG - NGR + NGR) (hq : q = true ↔ NG ≤ i ∧ i < NG + NGR) :
    (if p then (toFin d (d.rightOf c)).map e else none).elim
      ((if q then (toFin d (d.leftOf c)).map e else none).elim z fun o => g o (i + d.N)) (fun o => g o (i + -d.N)) = received d f c i := by
  have hc : 0 ≤ (c : ℤ) ∧ (c : ℤ) < d.C := ⟨by omega, by have := c.2; omega⟩
  have hlow : (if q then (toFin d (d.leftOf c)).map e else none).elim z (fun o => g o (i + d.N)) = match (if NG ≤ i ∧ i < NG + NGR then d.leftOf c else none) with
    | some c' => f c' (d.N + i)
    | none => 0 := by
    by_cases hl : NG ≤ i ∧ i < NG + NGR
    · rw [if_pos hl, if_pos (hq.2 hl)]
      cases e' : d.leftOf c with
      | some c' =>
        obtain ⟨u, hu, huc⟩ := toFin_some (leftOf_rank hc e')
        rw [hu]
        simp only [Option.map_some, Option.elim_some, h, huc, add_comm]
      | none => exact hz
    · rw [if_neg hl, if_neg (fun h => hl (hq.1 h))]
      exact hz
  rw [hlow]
  unfold received
  by_cases hu : d.N + NG - NGR ≤ i ∧ i < d.N + NG
  · rw [if_pos hu, if_pos (hp.2 (by omega))]
    cases e' : d.rightOf c with
    | some c' =>
      obtain ⟨u, hu, huc⟩ := toFin_some (rightOf_rank hc e')
      rw [hu]
      simp only [Option.map_some, Option.elim_some, h, huc, sub_eq_add_neg]
    | none => rfl
  · rw [if_neg hu, if_neg (fun h => hu (by have := hp.1 h; omega))]
    rfl

theorem gather_same (d : Dim) (h1 : 1 ≤ d.N) (f : ℤ → ℤ → V) (c i : ℤ) (hi : ¬ ext d i) : gather d f c i = f c i := by
  have hNG : NG = 3 := rfl
  have hNGR : NGR = 1 := rfl
  unfold ext at hi
  unfold gather received
  rw [if_neg (by omega), if_neg (by omega)]
  exact add_zero _

theorem direction_empty (d : Fin 3) (A : Ranks d1 d2 d3 → Mem V) : Empty ((direction d1 d2 d3 d).foldl (fun V I => exec I V) A) := by
  intro r i j k hi hj hk
  simp only [direction, List.foldl_cons, List.foldl_nil]
  change (reduce d1 d2 d3 _).buf i j k = _
  simp only [reduce]
  rw [if_pos ⟨hi, hj, hk⟩]

theorem direction1 (h1 : 1 ≤ d1.N) (A : Ranks d1 d2 d3 → Mem V) (W : World V) (h : Same A W) (he : Empty A) :
    Same ((direction d1 d2 d3 0).foldl (fun V I => exec I V) A) (sync1 d1 d2 d3 W) := by
  rintro ⟨r1, r2, r3⟩ i j k
  simp only [direction, List.foldl_cons, List.foldl_nil]
  obtain ⟨ha, hb⟩ := two_swaps 0 A (r1, r2, r3) i j k
  change (reduce d1 d2 d3 _).arr i j k = _
  simp only [reduce, ha, hb, h _ i j k, sync1]
  by_cases hx : ext d1 i
  · by_cases hm : ext d2 j ∧ ext d3 k
    · rw [if_pos ⟨hx, hm⟩, if_pos hm]
      refine congrArg _ (line_received d1 r1 (fun c => ((c, r2, r3) : Ranks d1 d2 d3)) (fun o i => (A o).arr i j k) (fun c i => W c r2 r3 i j k)
        (fun c i => h _ _ _ _) _ (he (r1, r2, r3) i j k hx hm.1 hm.2) i (sheet d1 d2 d3 0 (size d1 d2 d3 0 + NG - NGR) i j k) (sheet d1 d2 d3 0 NG i j k) ?_ ?_) <;> simp [sheet, hm, size]
    · rw [if_neg hm, if_neg (fun h => hm h.2)]
  · rw [if_neg (fun h => hx h.1), gather_same d1 h1 _ _ _ hx]
    simp

theorem direction2 (h2 : 1 ≤ d2.N) (A : Ranks d1 d2 d3 → Mem V) (W : World V) (h : Same A W) (he : Empty A) :
    Same ((direction d1 d2 d3 1).foldl (fun V I => exec I V) A) (sync2 d1 d2 d3 W) := by
  rintro ⟨r1, r2, r3⟩ i j k
  simp only [direction, List.foldl_cons, List.foldl_nil]
  obtain ⟨ha, hb⟩ := two_swaps 1 A (r1, r2, r3) i j k
  change (reduce d1 d2 d3 _).arr i j k = _
  simp only [reduce, ha, hb, h _ i j k, sync2]
  by_cases hx : ext d2 j
  · by_cases hm : ext d1 i ∧ ext d3 k
    · rw [if_pos ⟨hm.1, hx, hm.2⟩, if_pos hm]
      refine congrArg _ (line_received d2 r2 (fun c => ((r1, c, r3) : Ranks d1 d2 d3)) (fun o j => (A o).arr i j k) (fun c j => W r1 c r3 i j k)
        (fun c i => h _ _ _ _) _ (he (r1, r2, r3) i j k hm.1 hx hm.2) j (sheet d1 d2 d3 1 (size d1 d2 d3 1 + NG - NGR) i j k) (sheet d1 d2 d3 1 NG i j k) ?_ ?_) <;> simp [sheet, hm, size]
    · rw [if_neg hm, if_neg (fun h => hm ⟨h.1, h.2.2⟩)]
  · rw [if_neg (fun h => hx h.2.1), gather_same d2 h2 _ _ _ hx]
    simp

theorem direction3 (h3 : 1 ≤ d3.N) (A : Ranks d1 d2 d3 → Mem V) (W : World V) (h : Same A W) (he : Empty A) :
    Same ((direction d1 d2 d3 2).foldl (fun V I => exec I V) A) (sync3 d1 d2 d3 W) := by
  rintro ⟨r1, r2, r3⟩ i j k
  simp only [direction, List.foldl_cons, List.foldl_nil]
  obtain ⟨ha, hb⟩ := two_swaps 2 A (r1, r2, r3) i j k
  change (reduce d1 d2 d3 _).arr i j k = _
  simp only [reduce, ha, hb, h _ i j k, sync3]
  by_cases hx : ext d3 k
  · by_cases hm : ext d1 i ∧ ext d2 j
    · rw [if_pos ⟨hm.1, hm.2, hx⟩, if_pos hm]
      refine congrArg _ (line_received d3 r3 (fun c => ((r1, r2, c) : Ranks d1 d2 d3)) (fun o k => (A o).arr i j k) (fun c k => W r1 r2 c i j k)
        (fun c i => h _ _ _ _) _ (he (r1, r2, r3) i j k hm.1 hm.2 hx) k (sheet d1 d2 d3 2 (size d1 d2 d3 2 + NG - NGR) i j k) (sheet d1 d2 d3 2 NG i j k) ?_ ?_) <;> simp [sheet, hm, size]
    · rw [if_neg hm, if_neg (fun h => hm ⟨h.1, h.2.1⟩)]
  · rw [if_neg (fun h => hx h.2.2), gather_same d3 h3 _ _ _ hx]
    simp

/-! ## The whole -/

/-- What the start of a sum needs: buffers are empty where they are not cleared. -/
def Ready (w : ℤ → ℤ → ℤ → Bool) (A : Ranks d1 d2 d3 → Mem V) : Prop :=
  ∀ r i j k, ext d1 i → ext d2 j → ext d3 k → w i j k = false → (A r).buf i j k = 0

theorem sum_fold (h1 : 1 ≤ d1.N) (h2 : 1 ≤ d2.N) (h3 : 1 ≤ d3.N) (w : ℤ → ℤ → ℤ → Bool) (A : Ranks d1 d2 d3 → Mem V) (W : World V) (h : Same A W)
    (hr : Ready w A) : Same ((sum d1 d2 d3 w).foldl (fun V I => exec I V) A) (syncAdd d1 d2 d3 W) ∧ Empty ((sum d1 d2 d3 w).foldl (fun V I => exec I V) A) := by
  simp only [sum, List.foldl_append, List.foldl_cons, List.foldl_nil]
  have h0 : Same (exec (M := Arr V) (fun _ => .comp (wipe w)) A) W := fun r i j k => h r i j k
  have e0 : Empty (exec (M := Arr V) (fun _ => .comp (wipe w)) A) := by
    intro r i j k hi hj hk
    show (if w i j k then 0 else (A r).buf i j k) = 0
    cases hw : w i j k with
    | true => rfl
    | false => exact hr r i j k hi hj hk hw
  have s1 := direction1 h1 _ _ h0 e0
  have s2 := direction2 h2 _ _ s1 (direction_empty 0 _)
  have s3 := direction3 h3 _ _ s2 (direction_empty 1 _)
  rw [syncAdd_eq]
  exact ⟨s3, direction_empty 2 _⟩

theorem prog_eq {R σ M : Type*} (L : List (R → Instr R σ M)) : prog L = common L := rfl

/-- **C136 (result).** Whatever the interleaving of the ranks and whatever the library buffers: when all ranks are through `sync_radG`, no message is left,
every rank has in every stored zone what it has when all ranks act at once (`RadSync.syncAdd`, C57), and the receive buffers are empty where
the next call takes from them. They must be empty at the start where the `memset` does not clear them. -/
theorem C136_sum (h1 : 1 ≤ d1.N) (h2 : 1 ≤ d2.N) (h3 : 1 ≤ d3.N) (w : ℤ → ℤ → ℤ → Bool) (A : Ranks d1 d2 d3 → Mem V) (W : World V) (hA : Same A W) (hr : Ready w A)
    (s : St (Ranks d1 d2 d3) (Mem V) (Arr V)) (h : Reach (prog (sum d1 d2 d3 w)) A s) (hd : Done (prog (sum d1 d2 d3 w)) s) :
    (∀ a b t, s.chan a b t = []) ∧ (∀ (r : Ranks d1 d2 d3) i j k, (s.loc r).arr i j k = syncAdd d1 d2 d3 W r.1 r.2.1 r.2.2 i j k) ∧
      ∀ r i j k, ext d1 i → ext d2 j → ext d3 k → (s.loc r).buf i j k = 0 := by
  obtain ⟨e1, e2⟩ := C130_results _ _ (common_matched _ (sum_agree w)) A s h hd
  obtain ⟨f1, f2⟩ := sum_fold h1 h2 h3 w A W hA hr
  have e : s.loc = (sum d1 d2 d3 w).foldl (fun V I => exec I V) A := by rw [e1]; exact lock_all _ A
  rw [e]
  exact ⟨e2, f1, f2⟩

/-- **C136 (sums with clearing).** The same for `sync_Jrad` and `sync_radtype_vec`: on stored zones the result is that of all ranks at once, whatever
is in the buffers before. -/
theorem C136_sumClear (h1 : 1 ≤ d1.N) (h2 : 1 ≤ d2.N) (h3 : 1 ≤ d3.N) (A : Ranks d1 d2 d3 → Mem V) (W : World V) (hA : Same A W)
    (s : St (Ranks d1 d2 d3) (Mem V) (Arr V)) (h : Reach (prog (sumClear d1 d2 d3)) A s) (hd : Done (prog (sumClear d1 d2 d3)) s) :
    (∀ a b t, s.chan a b t = []) ∧ ∀ (r : Ranks d1 d2 d3) i j k, (s.loc r).arr i j k = syncClear d1 d2 d3 W r.1 r.2.1 r.2.2 i j k := by
  obtain ⟨e1, e2⟩ := C130_results _ _ (common_matched _ sumClear_agree) A s h hd
  obtain ⟨f1, f2⟩ := sum_fold h1 h2 h3 wipedAll A W hA (fun r i j k _ _ _ h => by simp [wipedAll] at h)
  have e : s.loc = (sumClear d1 d2 d3).foldl (fun V I => exec I V) A := by rw [e1]; exact lock_all _ A
  refine ⟨e2, fun r i j k => ?_⟩
  have f := f1 r i j k
  rw [e]
  simp only [sumClear, List.foldl_append, List.foldl_cons, List.foldl_nil]
  change (clear d1 d2 d3 _).arr i j k = _
  simp only [clear, syncClear, f]
  have hNG : NG = 3 := rfl
  by_cases hact : act d1 i ∧ act d2 j ∧ act d3 k
  · rw [if_pos hact, if_neg]
    unfold act at hact; omega
  · rw [if_neg hact]
    by_cases hall : all d1 i ∧ all d2 j ∧ all d3 k
    · rw [if_pos hall, if_pos]
      unfold act at hact; unfold all at hall ⊢; omega
    · rw [if_neg hall, if_neg]
      unfold all at hall ⊢; omega

/-- **C136 (completion).** As long as a rank is not through, something can happen without the library buffering anything, and no schedule is longer than a
bound set by the number of ranks. -/
theorem C136_completes [Nonempty (Ranks d1 d2 d3)] (w : ℤ → ℤ → ℤ → Bool) (A : Ranks d1 d2 d3 → Mem V) (n : ℕ)
    (s : St (Ranks d1 d2 d3) (Mem V) (Arr V)) (h : Sched (prog (sum d1 d2 d3 w)) A n s) :
    (Done (prog (sum d1 d2 d3 w)) s ∨ ∃ s', Step (prog (sum d1 d2 d3 w)) false s s') ∧ n ≤ 42 * Fintype.card (Ranks d1 d2 d3) := by
  have hM := common_matched _ (sum_agree (V := V) (d1 := d1) (d2 := d2) (d3 := d3) w)
  constructor
  · by_cases hd : Done (prog (sum d1 d2 d3 w)) s
    · exact Or.inl hd
    · exact Or.inr (C130_no_deadlock _ _ hM A s h.reach hd)
  · have := C130_completes _ _ hM A n s h
    have e : (sum (V := V) d1 d2 d3 w).length = 10 := rfl
    rw [e] at this
    omega

/-- **C136 (completion with clearing).** -/
theorem C136_clear_completes [Nonempty (Ranks d1 d2 d3)] (A : Ranks d1 d2 d3 → Mem V) (n : ℕ)
    (s : St (Ranks d1 d2 d3) (Mem V) (Arr V)) (h : Sched (prog (sumClear d1 d2 d3)) A n s) :
    (Done (prog (sumClear d1 d2 d3)) s ∨ ∃ s', Step (prog (sumClear d1 d2 d3)) false s s') ∧ n ≤ 46 * Fintype.card (Ranks d1 d2 d3) := by
  have hM := common_matched _ (sumClear_agree (V := V) (d1 := d1) (d2 := d2) (d3 := d3))
  constructor
  · by_cases hd : Done (prog (sumClear d1 d2 d3)) s
    · exact Or.inl hd
    · exact Or.inr (C130_no_deadlock _ _ hM A s h.reach hd)
  · have := C130_completes _ _ hM A n s h
    have e : (sumClear (V := V) d1 d2 d3).length = 11 := rfl
    rw [e] at this
    omega

/-- Step after step with all ranks at once: what the ranks do to their arrays, then the sum. -/
def history (d1 d2 d3 : Dim) (fs : List (ℤ → ℤ → ℤ → Arr V → Arr V)) (W : World V) : World V :=
  fs.foldl (fun W f => syncAdd d1 d2 d3 fun c1 c2 c3 => f c1 c2 c3 (W c1 c2 c3)) W

theorem sums_fold (h1 : 1 ≤ d1.N) (h2 : 1 ≤ d2.N) (h3 : 1 ≤ d3.N) (w : ℤ → ℤ → ℤ → Bool) (fs : List (ℤ → ℤ → ℤ → Arr V → Arr V)) :
    ∀ (A : Ranks d1 d2 d3 → Mem V) (W : World V), Same A W → Ready w A → Same ((sums d1 d2 d3 w fs).foldl (fun V I => exec I V) A) (history d1 d2 d3 fs W) := by
  induction fs with
  | nil => exact fun A W h _ => h
  | cons f fs ih =>
    intro A W h hr
    have e : sums d1 d2 d3 w (f :: fs) = (fun r => .comp fun m => { m with arr := f r.1 r.2.1 r.2.2 m.arr }) :: (sum d1 d2 d3 w ++ sums d1 d2 d3 w fs) := rfl
    rw [e, List.foldl_cons, List.foldl_append]
    have hs : Same (exec (M := Arr V) (fun r => .comp fun m => { m with arr := f r.1 r.2.1 r.2.2 m.arr }) A) fun c1 c2 c3 => f c1 c2 c3 (W c1 c2 c3) := by
      intro r i j k
      have hA : (A r).arr = W r.1 r.2.1 r.2.2 := by funext i j k; exact h r i j k
      show f _ _ _ (A r).arr i j k = _
      rw [hA]
    obtain ⟨g1, g2⟩ := sum_fold h1 h2 h3 w _ _ hs (fun r i j k hi hj hk hw => hr r i j k hi hj hk hw)
    exact ih _ _ g1 fun r i j k hi hj hk _ => g2 r i j k hi hj hk

/-- **C136 (runs).** However many steps and whatever the ranks do to their arrays in between: if the buffers are empty at the start of the run (they are
static), the arrays are at the end those of all ranks at once. The buffers are never read in a state left over from an earlier step, although the
`memset` does not clear all of them (`C136_memset_short`). -/
theorem C136_runs (h1 : 1 ≤ d1.N) (h2 : 1 ≤ d2.N) (h3 : 1 ≤ d3.N) (w : ℤ → ℤ → ℤ → Bool) (fs : List (ℤ → ℤ → ℤ → Arr V → Arr V)) (A : Ranks d1 d2 d3 → Mem V) (W : World V)
    (hA : Same A W) (hr : ∀ r i j k, (A r).buf i j k = 0) (s : St (Ranks d1 d2 d3) (Mem V) (Arr V)) (h : Reach (prog (sums d1 d2 d3 w fs)) A s)
    (hd : Done (prog (sums d1 d2 d3 w fs)) s) :
    (∀ a b t, s.chan a b t = []) ∧ ∀ (r : Ranks d1 d2 d3) i j k, (s.loc r).arr i j k = history d1 d2 d3 fs W r.1 r.2.1 r.2.2 i j k := by
  obtain ⟨e1, e2⟩ := C130_results _ _ (common_matched _ (sums_agree w fs)) A s h hd
  have e : s.loc = (sums d1 d2 d3 w fs).foldl (fun V I => exec I V) A := by rw [e1]; exact lock_all _ A
  rw [e]
  exact ⟨e2, sums_fold h1 h2 h3 w fs A W hA fun r i j k _ _ _ _ => hr r i j k⟩

/-- **C136 (deposits).** What is deposited on all ranks before the sum is afterwards in the active zones, each deposit once in the zone of which its place is
a copy, under every schedule. -/
theorem C136_deposits (h1 : 1 ≤ d1.N) (h2 : 1 ≤ d2.N) (h3 : 1 ≤ d3.N) (w : ℤ → ℤ → ℤ → Bool) (l : List (Dep V)) (A : Ranks d1 d2 d3 → Mem V)
    (hA : Same A (deposits d1 d2 d3 l)) (hr : Ready w A) (s : St (Ranks d1 d2 d3) (Mem V) (Arr V)) (h : Reach (prog (sum d1 d2 d3 w)) A s)
    (hd : Done (prog (sum d1 d2 d3 w)) s) (r : Ranks d1 d2 d3) (i j k : ℤ) (hi : act d1 i) (hj : act d2 j) (hk : act d3 k) :
    (s.loc r).arr i j k = (l.map fun e => if (e.c.1, place d1 e.z.1) ∈ copies d1 r.1 i ∧ (e.c.2.1, place d2 e.z.2.1) ∈ copies d2 r.2.1 j ∧
        (e.c.2.2, place d3 e.z.2.2) ∈ copies d3 r.2.2 k then e.x else 0).sum := by
  rw [(C136_sum h1 h2 h3 w A _ hA hr s h hd).2.1]
  have hc : ∀ (d : Dim) (c : Fin d.C.toNat), 0 ≤ (c : ℤ) ∧ (c : ℤ) < d.C := fun d c => ⟨by omega, by have := c.2; omega⟩
  exact C57_deposits d1 d2 d3 ⟨h1, by have := hc d1 r.1; omega⟩ ⟨h2, by have := hc d2 r.2.1; omega⟩ ⟨h3, by have := hc d3 r.2.2; omega⟩ l _ _ _ i j k (hc _ _) (hc _ _)
    (hc _ _) hi hj hk

/-- **C136 (`memset`).** With further components (`NRADCOMP`, here four) the `memset` of `radG_buf` leaves zones untouched that the reduction takes from. -/
theorem C136_memset_short : ∃ (d : Dim) (i : ℤ), ext d i ∧ wipedG d d d 8 4 i i i = false :=
  ⟨⟨4, 1, .periodic, .periodic⟩, 7, by decide, by decide⟩

/-- Without additional components it clears all. -/
theorem C136_memset_all (mu i j k : ℤ) (hmu : mu < 4) (hi : all d1 i) (hj : all d2 j) (hk : all d3 k) : wipedG d1 d2 d3 4 mu i j k = true := by
  have hNG : NG = 3 := rfl
  unfold all at hi hj hk
  unfold wipedG
  rw [hNG] at hi hj hk ⊢
  simp only [decide_eq_true_eq]
  have a1 : i * (d2.N + 2 * 3) + (d2.N + 2 * 3) ≤ (d1.N + 2 * 3) * (d2.N + 2 * 3) := by
    have := mul_le_mul_of_nonneg_right (show i + 1 ≤ d1.N + 2 * 3 by omega) (show 0 ≤ d2.N + 2 * 3 by omega)
    linarith
  have a2 : (i * (d2.N + 2 * 3) + j) * (d3.N + 2 * 3) + (d3.N + 2 * 3) ≤ (d1.N + 2 * 3) * (d2.N + 2 * 3) * (d3.N + 2 * 3) := by
    have := mul_le_mul_of_nonneg_right (show i * (d2.N + 2 * 3) + j + 1 ≤ (d1.N + 2 * 3) * (d2.N + 2 * 3) by omega) (show 0 ≤ d3.N + 2 * 3 by omega)
    linarith
  omega

/-- The hypotheses can be met: two ranks, periodic; a deposit in the ghost zone of rank 0 next to rank 1; some schedule gets all ranks through. -/
example : ∃ (A : Ranks ⟨4, 2, .periodic, .periodic⟩ ⟨4, 1, .outflow, .outflow⟩ ⟨1, 1, .outflow, .outflow⟩ → Mem ℤ) (s : St _ (Mem ℤ) (Arr ℤ)),
    Same A (deposits ⟨4, 2, .periodic, .periodic⟩ ⟨4, 1, .outflow, .outflow⟩ ⟨1, 1, .outflow, .outflow⟩ [⟨(0, 0, 0), (7, 4, 3), 5⟩]) ∧
    (∀ r i j k, (A r).buf i j k = 0) ∧ Reach (prog (sum _ _ _ (wipedG ⟨4, 2, .periodic, .periodic⟩ ⟨4, 1, .outflow, .outflow⟩ ⟨1, 1, .outflow, .outflow⟩ 8 0))) A s ∧
    Done (prog (sum ⟨4, 2, .periodic, .periodic⟩ ⟨4, 1, .outflow, .outflow⟩ ⟨1, 1, .outflow, .outflow⟩
      (wipedG ⟨4, 2, .periodic, .periodic⟩ ⟨4, 1, .outflow, .outflow⟩ ⟨1, 1, .outflow, .outflow⟩ 8 0))) s := by
  have hne : Nonempty (Ranks ⟨4, 2, .periodic, .periodic⟩ ⟨4, 1, .outflow, .outflow⟩ ⟨1, 1, .outflow, .outflow⟩) := ⟨(⟨0, by decide⟩, ⟨0, by decide⟩, ⟨0, by decide⟩)⟩
  obtain ⟨s, hs, hd⟩ := C130_finishes _ _ (common_matched _ (sum_agree (V := ℤ) (d1 := ⟨4, 2, .periodic, .periodic⟩) (d2 := ⟨4, 1, .outflow, .outflow⟩) (d3 := ⟨1, 1, .outflow, .outflow⟩)
    (wipedG ⟨4, 2, .periodic, .periodic⟩ ⟨4, 1, .outflow, .outflow⟩ ⟨1, 1, .outflow, .outflow⟩ 8 0)))
    (fun r => ⟨deposits ⟨4, 2, .periodic, .periodic⟩ ⟨4, 1, .outflow, .outflow⟩ ⟨1, 1, .outflow, .outflow⟩ [⟨(0, 0, 0), (7, 4, 3), 5⟩] r.1 r.2.1 r.2.2, fun _ _ _ => 0⟩)
    (start _) Reach.start
  exact ⟨_, s, fun _ _ _ _ => rfl, fun _ _ _ _ => rfl, hs, hd⟩

end Nubhlight.SumMessages
