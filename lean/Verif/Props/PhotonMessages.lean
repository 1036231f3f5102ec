import Mathlib.Algebra.BigOperators.Ring.Finset
import Verif.Props.PhotonSync
import Verif.Props.Messages
import Verif.Model.PhotonMessages

set_option autoImplicit false
set_option linter.unusedSectionVars false

/-! # C135: the exchange of packets completes and does not depend on timing -/

namespace Nubhlight.PhotonMessages

open PhotonSync Messages

variable {K : Type*} [Field K] [LinearOrder K] [IsStrictOrderedRing K] {T : Type}

/-! ## Instructions of ranks correspond -/

theorem agree_nbr (g : Grid K) (d : Fin 3) (b : Bool) (tag : ℕ) (pay : Rank g → Post K T → Msg K T) (store : Rank g → Post K T → Option (Msg K T) → Post K T) :
    Agree fun r : Rank g => .xchg (nbr g d b r) (nbr g d (!b) r) tag (pay r) (store r) := by
  refine ⟨?_, ?_, ?_⟩
  · intro x y src t p st h
    simp only [Instr.xchg.injEq] at h
    obtain ⟨h1, -, rfl, -⟩ := h
    exact ⟨_, _, _, congrArg (fun s => Instr.xchg _ s _ _ _) ((nbr_iff g d b x y).1 h1)⟩
  · intro x y dst t p st h
    simp only [Instr.xchg.injEq] at h
    obtain ⟨-, h1, rfl, -⟩ := h
    exact ⟨_, _, _, congrArg (fun s => Instr.xchg s _ _ _ _) ((nbr_iff g d b x y).2 h1)⟩
  · intro x y kind f h
    simp at h

theorem direction_agree (g : Grid K) (d : Fin 3) : ∀ I ∈ direction (T := T) g d, Agree I := by
  intro I hI
  simp only [direction, List.mem_cons, List.not_mem_nil, or_false] at hI
  rcases hI with rfl | rfl | rfl | rfl | rfl
  · exact agree_nbr g d true 0 (fun _ s => .count (s.nout d true)) _
  · exact agree_nbr g d true 0 (fun _ s => .packets ((s.out d true).take (s.nout d true))) _
  · exact agree_nbr g d false 0 (fun _ s => .count (s.nout d false)) _
  · exact agree_nbr g d false 0 (fun _ s => .packets ((s.out d false).take (s.nout d false))) _
  · exact agree_comp _

theorem exchange_agree (g : Grid K) : ∀ I ∈ exchange (T := T) g, Agree I := by
  intro I hI
  simp only [exchange, List.mem_append, List.mem_cons, List.not_mem_nil, or_false] at hI
  rcases hI with (((rfl | h) | h) | h) | rfl
  · exact agree_comp _
  · exact direction_agree g 0 I h
  · exact direction_agree g 1 I h
  · exact direction_agree g 2 I h
  · exact agree_comp _

theorem exchange_matched (g : Grid K) : Matched (exchangeProg (T := T) g) (exchange (T := T) g).length := common_matched (exchange g) (exchange_agree g)

/-! ## Loops over lists -/

@[simp] theorem upd_self {α : Type*} (f : Fin 3 → Bool → α) (d : Fin 3) (b : Bool) (x : α) : upd f d b x d b = x := by simp [upd]

theorem upd_other {α : Type*} (f : Fin 3 → Bool → α) (d : Fin 3) (b : Bool) (x : α) (e : Fin 3) (c : Bool) (h : ¬ (e = d ∧ c = b)) : upd f d b x e c = f e c := by
  simp [upd, h]

/-- What a loop that hands packets to lists does. -/
structure Sorted (slot : Ph K T → Slot) (new : Ph K T → Ph K T) (l : List (Ph K T)) (s s' : Post K T) : Prop where
  out : ∀ d b, (↑(s'.out d b) : Multiset (Ph K T)) = ((↑l : Multiset (Ph K T)).filter fun p => slot p = .send d b).map new + ↑(s.out d b)
  nout : ∀ d b, s'.nout d b + (s.out d b).length = s.nout d b + (s'.out d b).length
  nin : s'.nin = s.nin
  tmp : s'.tmp = s.tmp
  bad : s'.bad = s.bad
  rcvd : s'.rcvd = s.rcvd

theorem push_sorted (slot : Ph K T → Slot) (new : Ph K T → Ph K T) (p : Ph K T) (l : List (Ph K T)) (s s1 s' : Post K T) (d : Fin 3) (b : Bool) (hs : slot p = .send d b)
    (h1 : s1 = { push s d b (new p) with sent := s1.sent, tot := s1.tot, kept := s1.kept, nkept := s1.nkept }) (h : Sorted slot new l s1 s') :
    Sorted slot new (p :: l) s s' := by
  have eo : s1.out = upd s.out d b (new p :: s.out d b) := by rw [h1]; rfl
  have en : s1.nout = upd s.nout d b (s.nout d b + 1) := by rw [h1]; rfl
  refine ⟨fun e c => ?_, fun e c => ?_, by rw [h.nin, h1]; rfl, by rw [h.tmp, h1]; rfl, by rw [h.bad, h1]; rfl, by rw [h.rcvd, h1]; rfl⟩
  · rw [h.out e c, eo, ← Multiset.cons_coe]
    by_cases hc : e = d ∧ c = b
    · obtain ⟨rfl, rfl⟩ := hc
      rw [upd_self, Multiset.filter_cons_of_pos (p := fun p => slot p = .send e c) _ hs, Multiset.map_cons, ← Multiset.cons_coe, Multiset.add_cons, Multiset.cons_add]
    · rw [upd_other _ _ _ _ _ _ hc, Multiset.filter_cons_of_neg]
      rw [hs]
      simp only [Slot.send.injEq]
      exact fun hh => hc ⟨hh.1.symm, hh.2.symm⟩
  · have := h.nout e c
    rw [eo, en] at this
    by_cases hc : e = d ∧ c = b
    · obtain ⟨rfl, rfl⟩ := hc
      rw [upd_self, upd_self, List.length_cons] at this
      omega
    · rwa [upd_other _ _ _ _ _ _ hc, upd_other _ _ _ _ _ _ hc] at this

theorem skip_sorted (slot : Ph K T → Slot) (new : Ph K T → Ph K T) (p : Ph K T) (l : List (Ph K T)) (s s1 s' : Post K T) (hs : slot p = .done)
    (h1 : s1 = { s with kept := s1.kept, nkept := s1.nkept }) (h : Sorted slot new l s1 s') : Sorted slot new (p :: l) s s' := by
  have eo : s1.out = s.out := by rw [h1]
  have en : s1.nout = s.nout := by rw [h1]
  refine ⟨fun e c => ?_, fun e c => ?_, by rw [h.nin, h1], by rw [h.tmp, h1], by rw [h.bad, h1], by rw [h.rcvd, h1]⟩
  · rw [h.out e c, eo, ← Multiset.cons_coe, Multiset.filter_cons_of_neg]
    rw [hs]; simp
  · have := h.nout e c
    rwa [eo, en] at this

theorem sort_fold (g : Grid K) (r : Rank g) (l : List (Ph K T)) (s : Post K T) :
    Sorted (fun p => slotFrom g r 0 p.x) id l s (l.foldl (sortOne g r) s) ∧ (l.foldl (sortOne g r) s).kept = s.kept ∧ (l.foldl (sortOne g r) s).nkept = s.nkept ∧
      (l.foldl (sortOne g r) s).sent = s.sent + ((↑l : Multiset (Ph K T)).filter fun p => slotFrom g r 0 p.x ≠ .done).card ∧
      (l.foldl (sortOne g r) s).tot = s.tot - ((↑l : Multiset (Ph K T)).filter fun p => slotFrom g r 0 p.x ≠ .done).card := by
  induction l generalizing s with
  | nil => refine ⟨⟨?_, ?_, rfl, rfl, rfl, rfl⟩, rfl, rfl, ?_, ?_⟩ <;> simp
  | cons p l ih =>
    rw [List.foldl_cons]
    obtain ⟨h1, h2, h3, h4, h5⟩ := ih (sortOne g r s p)
    cases hs : slotFrom g r 0 p.x with
    | done =>
      have e : sortOne g r s p = s := by unfold sortOne; rw [hs]
      rw [e] at h1 h2 h3 h4 h5 ⊢
      refine ⟨skip_sorted _ _ p l s s _ hs rfl h1, h2, h3, ?_, ?_⟩
      · rw [h4, ← Multiset.cons_coe, Multiset.filter_cons_of_neg _ (by simp [hs])]
      · rw [h5, ← Multiset.cons_coe, Multiset.filter_cons_of_neg _ (by simp [hs])]
    | send d b =>
      have e : sortOne g r s p = push { s with sent := s.sent + 1, tot := s.tot - 1 } d b p := by unfold sortOne; rw [hs]
      refine ⟨push_sorted _ id p l s _ _ d b hs (by rw [e]; rfl) h1, by rw [h2, e]; rfl, by rw [h3, e]; rfl, ?_, ?_⟩
      · rw [h4, e, ← Multiset.cons_coe, Multiset.filter_cons_of_pos _ (by simp [hs]), Multiset.card_cons]
        simp only [push]; push_cast; ring
      · rw [h5, e, ← Multiset.cons_coe, Multiset.filter_cons_of_pos _ (by simp [hs]), Multiset.card_cons]
        simp only [push]; push_cast; ring

theorem forward_fold (g : Grid K) (d : Fin 3) (r : Rank g) (l : List (Ph K T)) (s : Post K T) :
    Sorted (fun p => slotFrom g r (d + 1) p.x) (wrap g true) l s (l.foldl (forwardOne g d r) s) ∧
      (↑(l.foldl (forwardOne g d r) s).kept : Multiset (Ph K T)) =
        ((↑l : Multiset (Ph K T)).filter fun p => slotFrom g r (d + 1) p.x = .done).map (wrap g true) + ↑s.kept ∧
      (l.foldl (forwardOne g d r) s).nkept + s.kept.length = s.nkept + (l.foldl (forwardOne g d r) s).kept.length ∧
      (l.foldl (forwardOne g d r) s).sent = s.sent ∧ (l.foldl (forwardOne g d r) s).tot = s.tot := by
  induction l generalizing s with
  | nil => refine ⟨⟨?_, ?_, rfl, rfl, rfl, rfl⟩, ?_, rfl, rfl, rfl⟩ <;> simp
  | cons p l ih =>
    rw [List.foldl_cons]
    obtain ⟨h1, h2, h3, h4, h5⟩ := ih (forwardOne g d r s p)
    cases hs : slotFrom g r (d + 1) p.x with
    | done =>
      have e : forwardOne g d r s p = { s with kept := wrap g true p :: s.kept, nkept := s.nkept + 1 } := by unfold forwardOne; rw [hs]
      refine ⟨skip_sorted _ _ p l s _ _ hs (by rw [e]) h1, ?_, ?_, by rw [h4, e], by rw [h5, e]⟩
      · rw [h2, e, ← Multiset.cons_coe p l, Multiset.filter_cons_of_pos (p := fun p : Ph K T => slotFrom g r (d + 1) p.x = .done) _ hs, Multiset.map_cons, ← Multiset.cons_coe,
          Multiset.add_cons, Multiset.cons_add]
      · rw [e] at h3 ⊢
        simp only [List.length_cons] at h3
        omega
    | send c b =>
      have e : forwardOne g d r s p = push s c b (wrap g true p) := by unfold forwardOne; rw [hs]
      refine ⟨push_sorted _ _ p l s _ _ c b hs (by rw [e]) h1, ?_, ?_, by rw [h4, e]; rfl, by rw [h5, e]; rfl⟩
      · rw [h2, e, ← Multiset.cons_coe p l, Multiset.filter_cons_of_neg _ (by simp [hs])]; rfl
      · rw [e] at h3 ⊢
        exact h3

/-! ## One direction -/

theorem exec_count (g : Grid K) (d : Fin 3) (b : Bool) (V : Rank g → Post K T) (r : Rank g) :
    exec (sendCount g d b) V r = match nbr g d (!b) r with
      | none => V r
      | some q => { V r with nin := upd (V r).nin d (!b) ((V q).nout d b) } := by
  cases h : nbr g d (!b) r with
  | none => simp only [exec, sendCount, h, Option.bind_none]
  | some q => simp only [exec, sendCount, h, Option.bind_some]

/-- The number and the packets to one side: every message fits, and the lists sent end up in front of the neighbours' `ph_tmp_recv`. -/
theorem exec_two (g : Grid K) (d : Fin 3) (b : Bool) (V : Rank g → Post K T) (hn : ∀ r, (V r).nout d b = ((V r).out d b).length)
    (hi : ∀ r, (V r).nin d (!b) = 0) (hb : ∀ r, (V r).bad = false) (r : Rank g) :
    exec (sendPackets g d b) (exec (sendCount g d b) V) r = { V r with
      out := upd (V r).out d b []
      nin := match nbr g d (!b) r with | none => (V r).nin | some q => upd (V r).nin d (!b) ((V q).out d b).length
      tmp := (match nbr g d (!b) r with | none => [] | some q => ((V q).out d b).reverse) ++ (V r).tmp } := by
  have ho : ∀ q, (exec (sendCount g d b) V q).out = (V q).out := fun q => by rw [exec_count]; cases nbr g d (!b) q <;> rfl
  have hc : ∀ q, (exec (sendCount g d b) V q).nout = (V q).nout := fun q => by rw [exec_count]; cases nbr g d (!b) q <;> rfl
  cases h : nbr g d (!b) r with
  | none =>
    have e : exec (sendCount g d b) V r = V r := by rw [exec_count, h]
    simp only [exec.eq_1 (sendPackets g d b), sendPackets, h, Option.bind_none, e, hn, hi, hb, List.drop_length, List.nil_append]
    simp [← hb r]
  | some q =>
    have e : exec (sendCount g d b) V r = { V r with nin := upd (V r).nin d (!b) ((V q).nout d b) } := by rw [exec_count, h]
    simp only [exec.eq_1 (sendPackets g d b), sendPackets, h, Option.bind_some, ho, hc, e, hn, hb, List.take_length, List.drop_length, upd_self]
    simp [← hb r]

/-- Lists of a rank before direction `n` agree with the all-at-once model; numbers agree with lists where they are still used. -/
structure Holds (n : ℕ) (s : Post K T) (w : Slot → Multiset (Ph K T)) : Prop where
  out : ∀ d b, (↑(s.out d b) : Multiset (Ph K T)) = w (.send d b)
  nout : ∀ (d : Fin 3) b, n ≤ d.val → s.nout d b = (s.out d b).length
  nin : ∀ (d : Fin 3) b, n ≤ d.val → s.nin d b = 0
  kept : (↑s.kept : Multiset (Ph K T)) = w .done
  nkept : s.nkept = s.kept.length
  tmp : s.tmp = []
  bad : s.bad = false

theorem slotFrom_ge (g : Grid K) (r : Rank g) (n : ℕ) (x : Fin 3 → K) (e : Fin 3) (b : Bool) (h : slotFrom g r n x = .send e b) : n ≤ e.val := by
  unfold slotFrom at h
  by_cases h0 : n ≤ 0
  · omega
  rw [if_neg h0] at h
  by_cases h1 : n ≤ 1
  · rw [if_pos h1] at h
    cases h2 : side g r 1 (x 1) with
    | some c =>
      rw [h2] at h
      simp only [Option.map_some, Slot.send.injEq] at h
      rw [← h.1]; exact h1
    | none =>
      rw [h2] at h
      simp only [Option.map_none] at h
      rw [if_pos (by omega)] at h
      cases h3 : side g r 2 (x 2) with
      | some c =>
        rw [h3] at h
        simp only [Option.map_some, Slot.send.injEq] at h
        rw [← h.1]; exact (by decide : (1 : ℕ) ≤ 2).trans' h1
      | none => rw [h3] at h; simp at h
  · rw [if_neg h1] at h
    simp only at h
    by_cases h2 : n ≤ 2
    · rw [if_pos h2] at h
      cases h3 : side g r 2 (x 2) with
      | some c =>
        rw [h3] at h
        simp only [Option.map_some, Slot.send.injEq] at h
        rw [← h.1]; exact h2
      | none => rw [h3] at h; simp at h
    · rw [if_neg h2] at h; simp at h

theorem direction_holds (g : Grid K) (d : Fin 3) (V : Rank g → Post K T) (W : PhotonSync.World g T) (h : ∀ r, Holds d.val (V r) (W r)) (r : Rank g) :
    Holds (d.val + 1) ((direction g d).foldl (fun V I => exec I V) V r) (stage g d W r) ∧
      ((direction g d).foldl (fun V I => exec I V) V r).sent = (V r).sent ∧ ((direction g d).foldl (fun V I => exec I V) V r).rcvd = (V r).rcvd ∧
      ((direction g d).foldl (fun V I => exec I V) V r).tot = (V r).tot := by
  obtain ⟨V1, hV1⟩ : ∃ V1, V1 = exec (sendPackets g d true) (exec (sendCount g d true) V) := ⟨_, rfl⟩
  obtain ⟨V2, hV2⟩ : ∃ V2, V2 = exec (sendPackets g d false) (exec (sendCount g d false) V1) := ⟨_, rfl⟩
  have e : (direction g d).foldl (fun V I => exec I V) V r = forwardAll g d r (V2 r) := by rw [hV2, hV1]; rfl
  have s1 : ∀ q, V1 q = { V q with
      out := upd (V q).out d true []
      nin := match nbr g d false q with | none => (V q).nin | some o => upd (V q).nin d false ((V o).out d true).length
      tmp := (match nbr g d false q with | none => [] | some o => ((V o).out d true).reverse) ++ (V q).tmp } := fun q => by
    rw [hV1]
    exact exec_two g d true V (fun r => (h r).nout d true le_rfl) (fun r => (h r).nin d _ le_rfl) (fun r => (h r).bad) q
  have hft : ¬ (d = d ∧ false = true) := by simp
  have htf : ¬ (d = d ∧ true = false) := by simp
  have o1 : ∀ q, (V1 q).out d false = (V q).out d false := fun q => by rw [s1]; exact upd_other _ _ _ _ _ _ hft
  have s2 : V2 r = { V1 r with
      out := upd (V1 r).out d false []
      nin := match nbr g d true r with | none => (V1 r).nin | some o => upd (V1 r).nin d true ((V1 o).out d false).length
      tmp := (match nbr g d true r with | none => [] | some o => ((V1 o).out d false).reverse) ++ (V1 r).tmp } := by
    rw [hV2]
    refine exec_two g d false V1 (fun q => ?_) (fun q => ?_) (fun q => ?_) r
    · rw [o1]
      have : (V1 q).nout = (V q).nout := by rw [s1]
      rw [this]; exact (h q).nout d false le_rfl
    · have : (V1 q).nin d true = (V q).nin d true := by
        rw [s1]
        cases nbr g d false q with
        | none => rfl
        | some o => exact upd_other _ _ _ _ _ _ htf
      exact this.trans ((h q).nin d true le_rfl)
    · rw [s1]; exact (h q).bad
  have ht : (↑(V2 r).tmp : Multiset (Ph K T)) = received g d W r := by
    rw [s2]
    simp only [o1]
    rw [s1]
    simp only [(h r).tmp, List.append_nil]
    unfold received
    rw [← Multiset.coe_add, add_comm]
    congr 1
    · cases nbr g d false r with
      | none => rfl
      | some o => simp only [Multiset.coe_reverse, (h o).out]
    · cases nbr g d true r with
      | none => rfl
      | some o => simp only [Multiset.coe_reverse, (h o).out]
  have ho : (V2 r).out = upd (upd (V r).out d true []) d false [] := by rw [s2, s1]
  have hno : (V2 r).nout = (V r).nout := by rw [s2, s1]
  have hni : ∀ (e : Fin 3) b, e ≠ d → (V2 r).nin e b = (V r).nin e b := by
    intro e b hne
    have a1 : (V1 r).nin e b = (V r).nin e b := by
      rw [s1]
      cases nbr g d false r with
      | none => rfl
      | some o => exact upd_other _ _ _ _ _ _ fun hh => hne hh.1
    rw [s2, ← a1]
    cases nbr g d true r with
    | none => rfl
    | some o => exact upd_other _ _ _ _ _ _ fun hh => hne hh.1
  obtain ⟨f1, f2, f3, f4, f5⟩ := forward_fold g d r (V2 r).tmp { V2 r with tmp := [] }
  rw [e]
  change Sorted _ _ _ _ (forwardAll g d r (V2 r)) at f1
  change (↑(forwardAll g d r (V2 r)).kept : Multiset (Ph K T)) = _ at f2
  change (forwardAll g d r (V2 r)).nkept + _ = _ + (forwardAll g d r (V2 r)).kept.length at f3
  change (forwardAll g d r (V2 r)).sent = _ at f4
  change (forwardAll g d r (V2 r)).tot = _ at f5
  have hst : ∀ s, stage g d W r s = (if s = .send d false ∨ s = .send d true then 0 else W r s) +
      ((received g d W r).filter fun p => slotFrom g r (d + 1) p.x = s).map (wrap g true) := fun _ => rfl
  have hk : (V2 r).kept = (V r).kept := by rw [s2, s1]
  have hnk : (V2 r).nkept = (V r).nkept := by rw [s2, s1]
  refine ⟨⟨fun e b => ?_, fun e b he => ?_, fun e b he => ?_, ?_, ?_, ?_, ?_⟩, ?_, ?_, ?_⟩
  · rw [f1.out e b, hst, ht, add_comm]
    congr 1
    simp only [ho, Slot.send.injEq]
    by_cases hd : e = d
    · subst hd
      cases b with
      | false => rw [upd_self, if_pos (Or.inl ⟨rfl, rfl⟩)]; rfl
      | true => rw [upd_other _ _ _ _ _ _ htf, upd_self, if_pos (Or.inr ⟨rfl, rfl⟩)]; rfl
    · rw [upd_other _ _ _ _ _ _ fun hh => hd hh.1, upd_other _ _ _ _ _ _ fun hh => hd hh.1, if_neg, (h r).out]
      rintro (hh | hh) <;> exact hd hh.1
  · have hd : e ≠ d := fun hh => by rw [hh] at he; omega
    have := f1.nout e b
    simp only [ho, hno] at this
    rw [upd_other _ _ _ _ _ _ fun hh => hd hh.1, upd_other _ _ _ _ _ _ fun hh => hd hh.1, (h r).nout e b (by omega)] at this
    omega
  · have hd : e ≠ d := fun hh => by rw [hh] at he; omega
    rw [f1.nin]
    exact (hni e b hd).trans ((h r).nin e b (by omega))
  · rw [f2, hst, ht, add_comm]
    congr 1
    rw [if_neg (by simp)]
    exact (congrArg _ hk).trans (h r).kept
  · simp only [hk, hnk, (h r).nkept] at f3
    omega
  · exact f1.tmp
  · rw [f1.bad]
    change (V2 r).bad = false
    rw [s2, s1]; exact (h r).bad
  · rw [f4]; change (V2 r).sent = _; rw [s2, s1]
  · rw [f1.rcvd]; change (V2 r).rcvd = _; rw [s2, s1]
  · rw [f5]; change (V2 r).tot = _; rw [s2, s1]

/-! ## The whole exchange -/

/-- Number of packets a rank hands over. -/
def going (g : Grid K) (r : Rank g) (l : List (Ph K T)) : ℕ := ((↑l : Multiset (Ph K T)).filter fun p => slotFrom g r 0 p.x ≠ .done).card

theorem exchange_fold (g : Grid K) (V : Rank g → Post K T) (hb : ∀ r, (V r).bad = false) (r : Rank g) :
    let s := (exchange g).foldl (fun V I => exec I V) V r
    s.bad = false ∧ (↑s.kept : Multiset (Ph K T)) = PhotonSync.sync g (fun r => ↑(V r).given) r ∧ s.sent = (V r).sent + going g r (V r).given ∧
      s.rcvd = (V r).rcvd + (PhotonSync.sync (T := T) g (fun r => ↑(V r).given) r).card ∧
      s.tot = (V r).tot - going g r (V r).given + (PhotonSync.sync (T := T) g (fun r => ↑(V r).given) r).card := by
  have h0 : ∀ r, Holds 0 (sortAll g r (V r)) (PhotonSync.start g (fun r => ↑(V r).given) r) ∧ (sortAll g r (V r)).sent = (V r).sent + going g r (V r).given ∧
      (sortAll g r (V r)).rcvd = (V r).rcvd ∧ (sortAll g r (V r)).tot = (V r).tot - going g r (V r).given := by
    intro r
    obtain ⟨f1, f2, f3, f4, f5⟩ := sort_fold g r (V r).given
      { V r with given := [], out := fun _ _ => [], nout := fun _ _ => 0, nin := fun _ _ => 0, tmp := [], kept := [], nkept := 0 }
    refine ⟨⟨fun d b => ?_, fun d b _ => ?_, fun d b _ => ?_, ?_, ?_, f1.tmp, f1.bad.trans (hb r)⟩, f4, f1.rcvd, f5⟩
    · have := f1.out d b
      simp only [Multiset.map_id, Multiset.coe_nil, add_zero] at this
      exact this
    · have := f1.nout d b
      simp only [List.length_nil, Nat.add_zero, Nat.zero_add] at this
      exact this
    · exact congrFun (congrFun f1.nin d) b
    · exact congrArg _ f2
    · exact f3.trans (by rw [show (sortAll g r (V r)).kept = [] from f2]; rfl)
  obtain ⟨V0, hV0⟩ : ∃ V0 : Rank g → Post K T, V0 = fun r => sortAll g r (V r) := ⟨_, rfl⟩
  obtain ⟨V1, hV1⟩ : ∃ V1, V1 = (direction g 0).foldl (fun V I => exec I V) V0 := ⟨_, rfl⟩
  obtain ⟨V2, hV2⟩ : ∃ V2, V2 = (direction g 1).foldl (fun V I => exec I V) V1 := ⟨_, rfl⟩
  obtain ⟨V3, hV3⟩ : ∃ V3, V3 = (direction g 2).foldl (fun V I => exec I V) V2 := ⟨_, rfl⟩
  have e : (exchange g).foldl (fun V I => exec I V) V r = countIn (V3 r) := by
    unfold exchange
    rw [List.foldl_append, List.foldl_append, List.foldl_append, List.foldl_append, hV3, hV2, hV1, hV0]
    rfl
  have k1 := direction_holds g 0 V0 _ fun r => by rw [hV0]; exact (h0 r).1
  rw [← hV1] at k1
  have k2 := direction_holds g 1 V1 _ fun r => (k1 r).1
  rw [← hV2] at k2
  have k3 := direction_holds g 2 V2 _ fun r => (k2 r).1
  rw [← hV3] at k3
  obtain ⟨H, a1, a2, a3⟩ := k3 r
  have hk : (↑(V3 r).kept : Multiset (Ph K T)) = PhotonSync.sync g (fun r => ↑(V r).given) r := H.kept
  have hn : (V3 r).nkept = (PhotonSync.sync (T := T) g (fun r => ↑(V r).given) r).card := by rw [H.nkept, ← hk, Multiset.coe_card]
  have hV0r : V0 r = sortAll g r (V r) := by rw [hV0]
  simp only [e, countIn]
  refine ⟨H.bad, hk, ?_, ?_, ?_⟩
  · rw [a1, (k2 r).2.1, (k1 r).2.1, hV0r, (h0 r).2.1]
  · rw [a2, (k2 r).2.2.1, (k1 r).2.2.1, hV0r, (h0 r).2.2.1, hn]
  · rw [a3, (k2 r).2.2.2, (k1 r).2.2.2, hV0r, (h0 r).2.2.2, hn]

/-- **C135 (results).** Whatever the interleaving of the ranks and whatever the library buffers: when all ranks are through, no message is left, no number was
taken for packets, every message fitted its buffer, no list was read beyond its end, and every rank has received exactly the packets it receives when all
ranks act at once; `step_sent`, `step_rcvd` and `step_tot` count them. -/
theorem C135_exchange (g : Grid K) (V : Rank g → Post K T) (hb : ∀ r, (V r).bad = false) (s : St (Rank g) (Post K T) (Msg K T))
    (h : Reach (exchangeProg g) V s) (hd : Done (exchangeProg g) s) :
    (∀ a b t, s.chan a b t = []) ∧ ∀ r, (s.loc r).bad = false ∧ (↑(s.loc r).kept : Multiset (Ph K T)) = PhotonSync.sync g (fun r => ↑(V r).given) r ∧
      (s.loc r).sent = (V r).sent + going g r (V r).given ∧ (s.loc r).rcvd = (V r).rcvd + (s.loc r).kept.length ∧
      (s.loc r).tot = (V r).tot - going g r (V r).given + (s.loc r).kept.length := by
  obtain ⟨h1, h2⟩ := C130_results _ _ (exchange_matched g) V s h hd
  refine ⟨h2, fun r => ?_⟩
  obtain ⟨a1, a2, a3, a4, a5⟩ := exchange_fold g V hb r
  have e : s.loc r = (exchange g).foldl (fun V I => exec I V) V r := by rw [h1]; exact congrFun (lock_all (exchange g) V) r
  rw [e]
  rw [← a2, Multiset.coe_card] at a4 a5
  exact ⟨a1, a2, a3, a4, a5⟩

/-- **C135 (completion).** As long as a rank is not through, something can happen without the library buffering anything, and no schedule is longer than a
bound set by the number of ranks (not by the number of packets). -/
theorem C135_completes (g : Grid K) [Nonempty (Rank g)] (V : Rank g → Post K T) (n : ℕ) (s : St (Rank g) (Post K T) (Msg K T)) (h : Sched (exchangeProg g) V n s) :
    (Done (exchangeProg g) s ∨ ∃ s', Step (exchangeProg g) false s s') ∧ n ≤ 70 * Fintype.card (Rank g) := by
  constructor
  · by_cases hd : Done (exchangeProg g) s
    · exact Or.inl hd
    · exact Or.inr (C130_no_deadlock _ _ (exchange_matched g) V s h.reach hd)
  · have := C130_completes _ _ (exchange_matched g) V n s h
    have e : (exchange (K := K) (T := T) g).length = 17 := rfl
    rw [e] at this
    omega

/-- **C135 (delivery).** If the packets handed over are outside the box of their rank and near the domain (`Near`), the identifiers received by all ranks
together are those sent, each as often as sent, and the number of packets counted on all ranks does not change. -/
theorem C135_delivered (g : Grid K) (hg : Consistent g) (V : Rank g → Post K T) (hb : ∀ r, (V r).bad = false)
    (hp : ∀ r, ∀ p ∈ (V r).given, PhotonSync.Near g p.x ∧ ¬ Home g r p.x) (s : St (Rank g) (Post K T) (Msg K T))
    (h : Reach (exchangeProg g) V s) (hd : Done (exchangeProg g) s) :
    (∑ r, (↑((s.loc r).kept.map Ph.id) : Multiset T)) = ∑ r, (↑((V r).given.map Ph.id) : Multiset T) ∧
      ∑ r, (s.loc r).tot = ∑ r, (V r).tot := by
  obtain ⟨-, h2⟩ := C135_exchange g V hb s h hd
  have h3 := C39_delivered g hg (fun r => ↑(V r).given) (fun r p hpm => (hp r p (by simpa using hpm)).1) (fun r p hpm => (hp r p (by simpa using hpm)).2)
  unfold total at h3
  have e1 : ∀ (r : Rank g) (l : List (Ph K T)), ((↑l : Multiset (Ph K T)).map fun p => ({(r, p).2.id} : Multiset T)).sum = ↑(l.map Ph.id) := by
    intro r l
    rw [← Multiset.sum_map_singleton (↑(l.map Ph.id) : Multiset T)]
    simp only [Multiset.map_coe, List.map_map, Function.comp_def]
  have h4 : (∑ r, (↑((s.loc r).kept.map Ph.id) : Multiset T)) = ∑ r, (↑((V r).given.map Ph.id) : Multiset T) := by
    rw [Finset.sum_congr rfl fun r _ => (e1 r _).symm, Finset.sum_congr rfl fun r _ => (e1 r (V r).given).symm, ← h3]
    exact Finset.sum_congr rfl fun r _ => by rw [(h2 r).2.1]
  refine ⟨h4, ?_⟩
  have h5 := congrArg Multiset.card h4
  rw [Multiset.card_sum, Multiset.card_sum] at h5
  simp only [Multiset.coe_card, List.length_map] at h5
  have h6 : ∀ r, going g r (V r).given = (V r).given.length := by
    intro r
    unfold going
    rw [Multiset.filter_eq_self.2, Multiset.coe_card]
    intro p hpm
    exact slot_ne_done g r p.x (hp r p (by simpa using hpm)).2
  have h7 : ∀ r, (s.loc r).tot = (V r).tot - ((V r).given.length : ℤ) + ((s.loc r).kept.length : ℤ) := fun r => by rw [← h6 r]; exact (h2 r).2.2.2.2
  rw [Finset.sum_congr rfl fun r _ => h7 r, Finset.sum_add_distrib, Finset.sum_sub_distrib]
  have : (∑ r, ((s.loc r).kept.length : ℤ)) = ∑ r, ((V r).given.length : ℤ) := by
    rw [← Nat.cast_sum, ← Nat.cast_sum, h5]
  rw [this]; ring

/-- The hypotheses can be met: a packet leaves through a corner of a periodic grid of 16 ranks; some schedule gets all ranks through. -/
example : ∃ (V : Rank torus → Post ℚ) (s : St (Rank torus) (Post ℚ) (Msg ℚ)), (∀ r, (V r).bad = false) ∧
    (∀ r, ∀ p ∈ (V r).given, PhotonSync.Near torus p.x ∧ ¬ Home torus r p.x) ∧ (V corner).given = [cornerPh] ∧ Reach (exchangeProg torus) V s ∧
    Done (exchangeProg torus) s := by
  have hne : Nonempty (Rank torus) := ⟨corner⟩
  let V : Rank torus → Post ℚ := fun r =>
    ⟨if r = corner then [cornerPh] else [], fun _ _ => [], fun _ _ => 0, fun _ _ => 0, [], [], 0, 0, 0, 5, false⟩
  obtain ⟨s, hs, hd⟩ := C130_finishes (exchangeProg torus) _ (exchange_matched torus) V (start V) Reach.start
  refine ⟨V, s, fun _ => rfl, fun r p hp => ?_, by simp [V], hs, hd⟩
  by_cases hr : r = corner
  · simp only [V, if_pos hr, List.mem_singleton] at hp
    subst hp
    subst hr
    refine ⟨cornerPh_near, fun hh => ?_⟩
    have := (hh 2).1
    have h2 : (cornerPh.x 2 : ℚ) = -(1 / 2) := by change (-1 / 2 : ℚ) = _; norm_num
    rw [h2] at this
    norm_num [torus, corner, lo] at this
  · simp [V, hr] at hp

end Nubhlight.PhotonMessages
