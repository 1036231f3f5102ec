import Verif.Model.Messages
import Verif.Props.Bounds
import Verif.Props.FixupUtoprim
import Mathlib.Algebra.BigOperators.Group.Finset.Basic
import Mathlib.Algebra.Order.BigOperators.Group.Finset
import Mathlib.Data.Finset.Max

set_option autoImplicit false
set_option linter.unusedSectionVars false

/-! # C130: exchanges complete and do not depend on the schedule -/

namespace Nubhlight.Messages

variable {R σ M : Type*} [DecidableEq R]

/-! ## Specification -/

/-- What a rank sends in its `n`-th instruction, given its memory. -/
def payload (P : Prog R σ M) (n : ℕ) (r : R) (x : σ) : Option M :=
  match (P r)[n]? with
  | some (.xchg _ _ _ pay _) => some (pay x)
  | _ => none

/-- Memory of all ranks if they ran in step, one instruction at a time: every rank takes what its source sends in the same instruction. -/
def lock (P : Prog R σ M) (W : R → σ) : ℕ → R → σ
  | 0 => W
  | n + 1 => fun r => match (P r)[n]? with
    | some (.comp f) => f (lock P W n r)
    | some (.xchg _ src _ _ store) => store (lock P W n r) (src.bind fun o => payload P n o (lock P W n o))
    | some (.coll _ f) => f (lock P W n)
    | none => lock P W n r

/-- Programs of one length in which, instruction by instruction, sends and receives of ranks correspond, with one tag, and collective operations are
entered by all. -/
structure Matched (P : Prog R σ M) (N : ℕ) : Prop where
  len : ∀ r, (P r).length = N
  send : ∀ (n : ℕ) (a b : R) src tag pay store, (P a)[n]? = some (.xchg (some b) src tag pay store) →
    ∃ dst pay' store', (P b)[n]? = some (.xchg dst (some a) tag pay' store')
  recv : ∀ (n : ℕ) (a b : R) dst tag pay store, (P b)[n]? = some (.xchg dst (some a) tag pay store) →
    ∃ src pay' store', (P a)[n]? = some (.xchg (some b) src tag pay' store')
  coll : ∀ (n : ℕ) (a b : R) kind f, (P a)[n]? = some (.coll kind f) → ∃ g, (P b)[n]? = some (.coll kind g)

/-- All ranks are through. -/
def Done (P : Prog R σ M) (s : St R σ M) : Prop := ∀ r, s.pc r = (P r).length

/-! ## Invariant -/

/-- The send of instruction `n` is over. -/
def sent (s : St R σ M) (r : R) (n : ℕ) : Prop := n < s.pc r ∨ (n = s.pc r ∧ s.snd r = true)

/-- The receive of instruction `n` is over. -/
def recvd (s : St R σ M) (r : R) (n : ℕ) : Prop := n < s.pc r ∨ (n = s.pc r ∧ s.rcv r = true)

/-- Message of instruction `n` from `a` to `b` with tag `t`. -/
def msg (P : Prog R σ M) (W : R → σ) (a b : R) (t n : ℕ) : Option M :=
  match (P a)[n]? with
  | some (.xchg (some d) _ tag pay _) => if d = b ∧ tag = t then some (pay (lock P W n a)) else none
  | _ => none

open Classical in
/-- Message of instruction `n` if it is under way. -/
noncomputable def under (P : Prog R σ M) (W : R → σ) (s : St R σ M) (a b : R) (t n : ℕ) : Option M :=
  if sent s a n ∧ ¬ recvd s b n then msg P W a b t n else none

structure Inv (P : Prog R σ M) (W : R → σ) (N : ℕ) (s : St R σ M) : Prop where
  pc : ∀ r, s.pc r ≤ N
  colls : ∀ r (n : ℕ) kind f, n < s.pc r → (P r)[n]? = some (.coll kind f) → ∀ r', n < s.pc r'
  loc : ∀ r, s.loc r = lock P W (s.pc r) r
  chan : ∀ a b t, s.chan a b t = (List.range N).filterMap (under P W s a b t)
  first : ∀ (n : ℕ) a b dst tag pay store, (P b)[n]? = some (.xchg dst (some a) tag pay store) → recvd s b n → sent s a n
  snd : ∀ r, s.snd r = true → ∃ d src tag pay store, (P r)[s.pc r]? = some (.xchg (some d) src tag pay store)
  rcv : ∀ r, s.rcv r = true → ∃ dst o tag pay store, (P r)[s.pc r]? = some (.xchg dst (some o) tag pay store) ∧
    s.box r = payload P (s.pc r) o (lock P W (s.pc r) o)
  box : ∀ r, s.rcv r = false → s.box r = none

theorem lt_of_get {P : Prog R σ M} {N : ℕ} (hP : Matched P N) {r : R} {n : ℕ} {x : Instr R σ M} (h : (P r)[n]? = some x) : n < N := by
  rw [← hP.len r]
  exact (List.getElem?_eq_some_iff.1 h).1

theorem msg_some {P : Prog R σ M} {W : R → σ} {a b : R} {t n : ℕ} (h : msg P W a b t n ≠ none) :
    ∃ src pay store, (P a)[n]? = some (.xchg (some b) src t pay store) ∧ msg P W a b t n = some (pay (lock P W n a)) := by
  unfold msg at h ⊢
  split at h
  · rename_i d src tag pay store e
    by_cases hc : d = b ∧ tag = t
    · obtain ⟨rfl, rfl⟩ := hc
      exact ⟨src, pay, store, e, by simp⟩
    · rw [if_neg hc] at h; exact absurd rfl h
  · exact absurd rfl h

theorem msg_of {P : Prog R σ M} {W : R → σ} {a b : R} {t n : ℕ} {src : Option R} {pay : σ → M} {store : σ → Option M → σ}
    (h : (P a)[n]? = some (.xchg (some b) src t pay store)) : msg P W a b t n = some (pay (lock P W n a)) := by
  unfold msg; rw [h]; simp

theorem filterMap_congr' (N : ℕ) (f g : ℕ → Option M) (h : ∀ n < N, f n = g n) : (List.range N).filterMap f = (List.range N).filterMap g := by
  apply List.filterMap_congr
  intro n hn
  exact h n (List.mem_range.1 hn)

theorem filterMap_snoc (N n0 : ℕ) (f g : ℕ → Option M) (m : M) (h0 : n0 < N) (hf : f n0 = none) (hg : g n0 = some m)
    (hlt : ∀ n, n < n0 → g n = f n) (hgt : ∀ n, n0 < n → g n = none ∧ f n = none) :
    (List.range N).filterMap g = (List.range N).filterMap f ++ [m] := by
  obtain ⟨k, rfl⟩ : ∃ k, N = n0 + (1 + k) := ⟨N - n0 - 1, by omega⟩
  rw [List.range_add, List.filterMap_append, List.filterMap_append, filterMap_congr' n0 g f hlt, List.append_assoc]
  congr 1
  rw [List.range_add]
  simp only [List.range_one, List.map_append, List.map_cons, List.map_nil, List.filterMap_append, Nat.add_zero]
  have e : ∀ h : ℕ → Option M, (∀ n, n0 < n → h n = none) →
      List.filterMap h (List.map (n0 + ·) (List.map (1 + ·) (List.range k))) = [] := by
    intro h hh
    rw [List.filterMap_eq_nil_iff]
    intro x hx
    simp only [List.mem_map] at hx
    obtain ⟨y, ⟨z, -, rfl⟩, rfl⟩ := hx
    exact hh _ (by omega)
  rw [e g fun n hn => (hgt n hn).1, e f fun n hn => (hgt n hn).2]
  simp [hf, hg]

theorem filterMap_cons' (N n0 : ℕ) (f g : ℕ → Option M) (m : M) (h0 : n0 < N) (hf : f n0 = some m) (hg : g n0 = none)
    (hlt : ∀ n, n < n0 → f n = none ∧ g n = none) (hgt : ∀ n, n0 < n → g n = f n) :
    (List.range N).filterMap f = m :: (List.range N).filterMap g := by
  obtain ⟨k, rfl⟩ : ∃ k, N = n0 + (1 + k) := ⟨N - n0 - 1, by omega⟩
  rw [List.range_add, List.filterMap_append, List.filterMap_append]
  have e : ∀ h : ℕ → Option M, (∀ n, n < n0 → h n = none) → List.filterMap h (List.range n0) = [] := by
    intro h hh
    rw [List.filterMap_eq_nil_iff]
    intro x hx
    exact hh _ (List.mem_range.1 hx)
  rw [e f fun n hn => (hlt n hn).1, e g fun n hn => (hlt n hn).2, List.range_add]
  simp only [List.range_one, List.map_append, List.map_cons, List.map_nil, List.filterMap_append, Nat.add_zero, List.nil_append]
  have e2 : List.filterMap f (List.map (n0 + ·) (List.map (1 + ·) (List.range k))) = List.filterMap g (List.map (n0 + ·) (List.map (1 + ·) (List.range k))) := by
    apply List.filterMap_congr
    intro x hx
    simp only [List.mem_map] at hx
    obtain ⟨y, ⟨z, -, rfl⟩, rfl⟩ := hx
    exact (hgt _ (by omega)).symm
  rw [e2]
  simp [hf, hg]

/-- Channels do not change if no message changes its status. -/
theorem under_same {P : Prog R σ M} {W : R → σ} (s s' : St R σ M) (a b : R) (t n : ℕ)
    (h : msg P W a b t n ≠ none → (sent s' a n ↔ sent s a n) ∧ (recvd s' b n ↔ recvd s b n)) : under P W s' a b t n = under P W s a b t n := by
  classical
  unfold under
  by_cases hm : msg P W a b t n = none
  · rw [hm]; simp
  · obtain ⟨h1, h2⟩ := h hm
    simp only [h1, h2]

theorem payload_of {P : Prog R σ M} {n : ℕ} {r : R} {dst src : Option R} {tag : ℕ} {pay : σ → M} {store : σ → Option M → σ}
    (h : (P r)[n]? = some (.xchg dst src tag pay store)) (x : σ) : payload P n r x = some (pay x) := by
  unfold payload; rw [h]

theorem lock_comp {P : Prog R σ M} (W : R → σ) {n : ℕ} {r : R} {f : σ → σ} (h : (P r)[n]? = some (.comp f)) : lock P W (n + 1) r = f (lock P W n r) := by
  show (match (P r)[n]? with
    | some (.comp f) => f (lock P W n r)
    | some (.xchg _ src _ _ store) => store (lock P W n r) (src.bind fun o => payload P n o (lock P W n o))
    | some (.coll _ f) => f (lock P W n)
    | none => lock P W n r) = _
  rw [h]

theorem lock_xchg {P : Prog R σ M} (W : R → σ) {n : ℕ} {r : R} {dst src : Option R} {tag : ℕ} {pay : σ → M} {store : σ → Option M → σ}
    (h : (P r)[n]? = some (.xchg dst src tag pay store)) :
    lock P W (n + 1) r = store (lock P W n r) (src.bind fun o => payload P n o (lock P W n o)) := by
  show (match (P r)[n]? with
    | some (.comp f) => f (lock P W n r)
    | some (.xchg _ src _ _ store) => store (lock P W n r) (src.bind fun o => payload P n o (lock P W n o))
    | some (.coll _ f) => f (lock P W n)
    | none => lock P W n r) = _
  rw [h]

theorem lock_coll {P : Prog R σ M} (W : R → σ) {n : ℕ} {r : R} {kind : ℕ} {f : (R → σ) → σ} (h : (P r)[n]? = some (.coll kind f)) :
    lock P W (n + 1) r = f (lock P W n) := by
  show (match (P r)[n]? with
    | some (.comp f) => f (lock P W n r)
    | some (.xchg _ src _ _ store) => store (lock P W n r) (src.bind fun o => payload P n o (lock P W n o))
    | some (.coll _ f) => f (lock P W n)
    | none => lock P W n r) = _
  rw [h]

theorem start_inv (P : Prog R σ M) (W : R → σ) (N : ℕ) : Inv P W N (start W) where
  pc _ := Nat.zero_le _
  colls _ _ _ _ h := absurd h (Nat.not_lt_zero _)
  loc _ := rfl
  chan a b t := by
    symm
    rw [show (start W : St R σ M).chan a b t = [] from rfl, List.filterMap_eq_nil_iff]
    intro n _
    unfold under
    rw [if_neg]
    rintro ⟨h | ⟨-, h⟩, -⟩
    · exact absurd h (Nat.not_lt_zero _)
    · exact absurd h (by simp [start])
  first _ _ _ _ _ _ _ _ h := by
    rcases h with h | ⟨-, h⟩
    · exact absurd h (Nat.not_lt_zero _)
    · exact absurd h (by simp [start])
  snd _ h := absurd h (by simp [start])
  rcv _ h := absurd h (by simp [start])
  box _ _ := rfl

theorem leave_sent (s : St R σ M) (r : R) (x : σ) (a : R) (n : ℕ) :
    sent (s.leave r x) a n ↔ if a = r then n ≤ s.pc r else sent s a n := by
  unfold sent St.leave
  by_cases h : a = r
  · subst h; simp; omega
  · simp [h]

theorem leave_recvd (s : St R σ M) (r : R) (x : σ) (a : R) (n : ℕ) :
    recvd (s.leave r x) a n ↔ if a = r then n ≤ s.pc r else recvd s a n := by
  unfold recvd St.leave
  by_cases h : a = r
  · subst h; simp; omega
  · simp [h]

/-- A rank leaves an instruction whose sends and receives are over. -/
theorem leave_inv {P : Prog R σ M} {W : R → σ} {N : ℕ} (hP : Matched P N) {s : St R σ M} (hi : Inv P W N s) (r : R) (i : Instr R σ M)
    (hg : (P r)[s.pc r]? = some i) (hnc : ∀ kind f, i ≠ .coll kind f) (x : σ) (hx : x = lock P W (s.pc r + 1) r)
    (hs : ∀ d src tag pay store, i = .xchg (some d) src tag pay store → s.snd r = true)
    (hr : ∀ dst o tag pay store, i = .xchg dst (some o) tag pay store → s.rcv r = true) : Inv P W N (s.leave r x) := by
  have hlt := lt_of_get hP hg
  have hsnd : ∀ a b t n, msg P W a b t n ≠ none → (sent (s.leave r x) a n ↔ sent s a n) := by
    intro a b t n hm
    rw [leave_sent]
    split_ifs with h
    · subst h
      obtain ⟨src, pay, store, e, -⟩ := msg_some hm
      constructor
      · intro hn
        rcases lt_or_eq_of_le hn with h | h
        · exact Or.inl h
        · rw [h, hg] at e
          exact Or.inr ⟨h, hs _ _ _ _ _ (Option.some.inj e)⟩
      · rintro (h | ⟨h, -⟩) <;> omega
    · rfl
  have hrcv : ∀ a b t n, msg P W a b t n ≠ none → (recvd (s.leave r x) b n ↔ recvd s b n) := by
    intro a b t n hm
    rw [leave_recvd]
    split_ifs with h
    · subst h
      obtain ⟨src, pay, store, e, -⟩ := msg_some hm
      obtain ⟨dst, pay', store', e'⟩ := hP.send _ _ _ _ _ _ _ e
      constructor
      · intro hn
        rcases lt_or_eq_of_le hn with h | h
        · exact Or.inl h
        · rw [h, hg] at e'
          exact Or.inr ⟨h, hr _ _ _ _ _ (Option.some.inj e')⟩
      · rintro (h | ⟨h, -⟩) <;> omega
    · rfl
  refine ⟨?_, ?_, ?_, ?_, ?_, ?_, ?_, ?_⟩
  · intro a
    unfold St.leave
    by_cases h : a = r
    · subst h; simp; omega
    · simp [h]; exact hi.pc a
  · intro a n kind f hn hc r'
    have hn' : n < s.pc a := by
      unfold St.leave at hn
      by_cases h : a = r
      · subst h
        simp at hn
        rcases lt_or_eq_of_le (Nat.lt_succ_iff.1 hn) with h | h
        · exact h
        · rw [h, hg] at hc; exact absurd (Option.some.inj hc) (hnc _ _)
      · simpa [h] using hn
    have := hi.colls a n kind f hn' hc r'
    unfold St.leave
    by_cases h : r' = r
    · subst h; simp; omega
    · simp [h]; exact this
  · intro a
    by_cases h : a = r
    · subst h; simp [St.leave, hx]
    · simp [St.leave, h, hi.loc a]
  · intro a b t
    rw [show (s.leave r x).chan a b t = s.chan a b t from rfl, hi.chan]
    apply filterMap_congr'
    intro n _
    symm
    exact under_same s _ a b t n fun hm => ⟨hsnd a b t n hm, hrcv a b t n hm⟩
  · intro n a b dst tag pay store hb hrv
    obtain ⟨src, pay', store', ha⟩ := hP.recv _ _ _ _ _ _ _ hb
    have hm : msg P W a b tag n ≠ none := by rw [msg_of ha]; simp
    rw [hsnd a b tag n hm]
    exact hi.first n a b dst tag pay store hb ((hrcv a b tag n hm).1 hrv)
  · intro a ha
    by_cases h : a = r
    · subst h; simp [St.leave] at ha
    · simp [St.leave, h] at ha ⊢; exact hi.snd a ha
  · intro a ha
    by_cases h : a = r
    · subst h; simp [St.leave] at ha
    · simp only [St.leave, Function.update_of_ne h] at ha ⊢; exact hi.rcv a ha
  · intro a ha
    by_cases h : a = r
    · subst h; simp [St.leave]
    · simp only [St.leave, Function.update_of_ne h] at ha ⊢; exact hi.box a ha

/-- No message of an instruction a rank has not come to is sent. -/
theorem not_sent {s : St R σ M} {r : R} {n : ℕ} (h : s.pc r < n) : ¬ sent s r n := by
  rintro (h' | ⟨h', -⟩) <;> omega

theorem not_recvd {s : St R σ M} {r : R} {n : ℕ} (h : s.pc r < n) : ¬ recvd s r n := by
  rintro (h' | ⟨h', -⟩) <;> omega

theorem buffer_inv {P : Prog R σ M} {W : R → σ} {N : ℕ} (hP : Matched P N) {s : St R σ M} (hi : Inv P W N s) (r d : R) (src : Option R) (tag : ℕ)
    (pay : σ → M) (store : σ → Option M → σ) (hg : (P r)[s.pc r]? = some (.xchg (some d) src tag pay store)) (hs : s.snd r = false) :
    Inv P W N { s with snd := Function.update s.snd r true,
                       chan := fun a b t => if a = r ∧ b = d ∧ t = tag then s.chan a b t ++ [pay (s.loc r)] else s.chan a b t } := by
  set s' : St R σ M := { s with snd := Function.update s.snd r true, chan := fun a b t => if a = r ∧ b = d ∧ t = tag then s.chan a b t ++ [pay (s.loc r)] else s.chan a b t } with hs'
  have hsent : ∀ a n, sent s' a n ↔ if a = r then n ≤ s.pc r else sent s a n := by
    intro a n
    unfold sent
    by_cases h : a = r
    · subst h; simp [hs']; omega
    · simp [hs', h]
  have hrc : ∀ a n, recvd s' a n ↔ recvd s a n := fun a n => Iff.rfl
  have hnot : ¬ sent s r (s.pc r) := by rintro (h | ⟨-, h⟩); · omega
                                        · rw [hs] at h; exact absurd h (by simp)
  refine ⟨hi.pc, hi.colls, hi.loc, ?_, ?_, ?_, hi.rcv, hi.box⟩
  · intro a b t
    by_cases hc : a = r ∧ b = d ∧ t = tag
    · obtain ⟨rfl, rfl, rfl⟩ := hc
      rw [show s'.chan a b t = s.chan a b t ++ [pay (s.loc a)] by simp [hs'], hi.chan, hi.loc a]
      symm
      obtain ⟨dst, pay', store', hb⟩ := hP.send _ _ _ _ _ _ _ hg
      have hnr : ¬ recvd s b (s.pc a) := fun h => hnot (hi.first _ _ _ _ _ _ _ hb h)
      refine filterMap_snoc N (s.pc a) _ _ _ (lt_of_get hP hg) ?_ ?_ ?_ ?_
      · unfold under; rw [if_neg]; exact fun h => hnot h.1
      · unfold under; rw [if_pos ⟨(hsent _ _).2 (by simp), hnr⟩, msg_of hg]
      · intro n hn
        apply under_same
        intro _
        refine ⟨?_, Iff.rfl⟩
        rw [hsent, if_pos rfl]
        exact ⟨fun _ => Or.inl hn, fun _ => by omega⟩
      · intro n hn
        constructor
        · unfold under; rw [if_neg]; intro h; exact absurd h.1 (not_sent (s := s') hn)
        · unfold under; rw [if_neg]; intro h; exact absurd h.1 (not_sent hn)
    · rw [show s'.chan a b t = s.chan a b t by simp [hs', hc], hi.chan]
      apply filterMap_congr'
      intro n _
      symm
      apply under_same
      intro hm
      refine ⟨?_, Iff.rfl⟩
      rw [hsent]
      split_ifs with h
      · subst h
        constructor
        · intro hn
          rcases lt_or_eq_of_le hn with h | h
          · exact Or.inl h
          · obtain ⟨src', pay', store', e, -⟩ := msg_some hm
            rw [h, hg] at e
            simp only [Option.some.injEq, Instr.xchg.injEq] at e
            exact absurd ⟨rfl, e.1.symm, e.2.2.1.symm⟩ hc
        · rintro (h | ⟨h, -⟩) <;> omega
      · rfl
  · intro n a b dst tag' pay' store' hb hr
    rw [hsent]
    have := hi.first n a b dst tag' pay' store' hb hr
    split_ifs with h
    · subst h; rcases this with h | ⟨h, -⟩ <;> omega
    · exact this
  · intro a ha
    by_cases h : a = r
    · subst h; exact ⟨_, _, _, _, _, hg⟩
    · simp only [hs', Function.update_of_ne h] at ha; exact hi.snd a ha

theorem recv_inv {P : Prog R σ M} {W : R → σ} {N : ℕ} (hP : Matched P N) {s : St R σ M} (hi : Inv P W N s) (r o : R) (dst : Option R) (tag : ℕ)
    (pay : σ → M) (store : σ → Option M → σ) (m : M) (l : List M) (hg : (P r)[s.pc r]? = some (.xchg dst (some o) tag pay store))
    (hr : s.rcv r = false) (hm : s.chan o r tag = m :: l) :
    Inv P W N { s with rcv := Function.update s.rcv r true, box := Function.update s.box r (some m),
                       chan := fun a b t => if a = o ∧ b = r ∧ t = tag then l else s.chan a b t } := by
  set s' : St R σ M := { s with rcv := Function.update s.rcv r true, box := Function.update s.box r (some m), chan := fun a b t => if a = o ∧ b = r ∧ t = tag then l else s.chan a b t } with hs'
  have hrec : ∀ a n, recvd s' a n ↔ if a = r then n ≤ s.pc r else recvd s a n := by
    intro a n
    unfold recvd
    by_cases h : a = r
    · subst h; simp [hs']; omega
    · simp [hs', h]
  have hnot : ¬ recvd s r (s.pc r) := by rintro (h | ⟨-, h⟩); · omega
                                         · rw [hr] at h; exact absurd h (by simp)
  obtain ⟨src, pay', store', ho⟩ := hP.recv _ _ _ _ _ _ _ hg
  -- the message at hand is that of this instruction
  have hsent : sent s o (s.pc r) := by
    have hne : (List.range N).filterMap (under P W s o r tag) ≠ [] := by rw [← hi.chan, hm]; simp
    rw [ne_eq, List.filterMap_eq_nil_iff] at hne
    push Not at hne
    obtain ⟨n, -, hn⟩ := hne
    have hc : sent s o n ∧ ¬ recvd s r n := by
      by_contra hc
      exact hn (by unfold under; rw [if_neg hc])
    have hge : s.pc r ≤ n := by
      by_contra h
      exact hc.2 (Or.inl (by omega))
    rcases hge.lt_or_eq with h | h
    · have : n ≤ s.pc o := by rcases hc.1 with h | ⟨h, -⟩ <;> omega
      exact Or.inl (by omega)
    · rw [h]; exact hc.1
  have hlow : ∀ n, n < s.pc r → under P W s o r tag n = none := by
    intro n hn
    unfold under; rw [if_neg]
    exact fun h => h.2 (Or.inl hn)
  have hhead : under P W s o r tag (s.pc r) = some (pay' (lock P W (s.pc r) o)) := by
    unfold under; rw [if_pos ⟨hsent, hnot⟩, msg_of ho]
  have hpop : (List.range N).filterMap (under P W s o r tag) = pay' (lock P W (s.pc r) o) :: (List.range N).filterMap (under P W s' o r tag) := by
    refine filterMap_cons' N (s.pc r) _ _ _ (lt_of_get hP hg) hhead ?_ ?_ ?_
    · unfold under; rw [if_neg]; exact fun h => h.2 ((hrec _ _).2 (by simp))
    · intro n hn
      refine ⟨hlow n hn, ?_⟩
      unfold under; rw [if_neg]
      exact fun h => h.2 (Or.inl hn)
    · intro n hn
      apply under_same
      intro _
      refine ⟨Iff.rfl, ?_⟩
      rw [hrec, if_pos rfl]
      exact ⟨fun h => by omega, fun h => absurd h (not_recvd hn)⟩
  rw [← hi.chan, hm] at hpop
  obtain ⟨hm', hl'⟩ := List.cons.inj hpop
  refine ⟨hi.pc, hi.colls, hi.loc, ?_, ?_, hi.snd, ?_, ?_⟩
  · intro a b t
    by_cases hc : a = o ∧ b = r ∧ t = tag
    · obtain ⟨rfl, rfl, rfl⟩ := hc
      rw [show s'.chan a b t = l by simp [hs'], hl']
    · rw [show s'.chan a b t = s.chan a b t by simp [hs', hc], hi.chan]
      apply filterMap_congr'
      intro n _
      symm
      apply under_same
      intro hmm
      refine ⟨Iff.rfl, ?_⟩
      rw [hrec]
      split_ifs with h
      · subst h
        constructor
        · intro hn
          rcases lt_or_eq_of_le hn with h | h
          · exact Or.inl h
          · obtain ⟨src', pay'', store'', e, -⟩ := msg_some hmm
            obtain ⟨dst', p3, st3, e'⟩ := hP.send _ _ _ _ _ _ _ e
            rw [h, hg] at e'
            simp only [Option.some.injEq, Instr.xchg.injEq] at e'
            exact absurd ⟨e'.2.1.symm, rfl, e'.2.2.1.symm⟩ hc
        · rintro (h | ⟨h, -⟩) <;> omega
      · rfl
  · intro n a b dst' tag' pay'' store'' hb hrv
    rw [hrec] at hrv
    show sent s a n
    split_ifs at hrv with h
    · subst h
      rcases lt_or_eq_of_le hrv with h | h
      · exact hi.first n a b dst' tag' pay'' store'' hb (Or.inl h)
      · subst h
        rw [hg] at hb
        simp only [Option.some.injEq, Instr.xchg.injEq] at hb
        rw [← hb.2.1]; exact hsent
    · exact hi.first n a b dst' tag' pay'' store'' hb hrv
  · intro a ha
    by_cases h : a = r
    · subst h
      exact ⟨dst, o, tag, pay, store, hg, by simp only [hs', Function.update_self]; rw [hm', payload_of ho]⟩
    · simp only [hs', Function.update_of_ne h] at ha ⊢; exact hi.rcv a ha
  · intro a ha
    by_cases h : a = r
    · subst h; simp [hs'] at ha
    · simp only [hs', Function.update_of_ne h] at ha ⊢; exact hi.box a ha

/-- Handing over is buffering and receiving. -/
theorem pass_inv {P : Prog R σ M} {W : R → σ} {N : ℕ} (hP : Matched P N) {s : St R σ M} (hi : Inv P W N s) (a b : R) (src dst : Option R) (tag : ℕ)
    (pay pay' : σ → M) (store store' : σ → Option M → σ) (ha : (P a)[s.pc a]? = some (.xchg (some b) src tag pay store))
    (hb : (P b)[s.pc b]? = some (.xchg dst (some a) tag pay' store')) (hs : s.snd a = false) (hr : s.rcv b = false) (hc : s.chan a b tag = []) :
    Inv P W N { s with snd := Function.update s.snd a true, rcv := Function.update s.rcv b true,
                       box := Function.update s.box b (some (pay (s.loc a))) } := by
  have h1 := buffer_inv hP hi a b src tag pay store ha hs
  have h2 := recv_inv hP h1 b a dst tag pay' store' (pay (s.loc a)) [] hb hr (by simp [hc])
  convert h2 using 2
  funext x y t
  by_cases h : x = a ∧ y = b ∧ t = tag
  · obtain ⟨rfl, rfl, rfl⟩ := h; simp [hc]
  · simp [h]

theorem coll_same {P : Prog R σ M} {W : R → σ} {N : ℕ} (hP : Matched P N) {s : St R σ M} (hi : Inv P W N s) (kind : ℕ) (f : R → (R → σ) → σ)
    (h : ∀ r, (P r)[s.pc r]? = some (.coll kind (f r))) (a b : R) : s.pc a = s.pc b := by
  have key : ∀ a b, ¬ s.pc a < s.pc b := by
    intro a b hlt
    obtain ⟨g, hg⟩ := hP.coll _ a b _ _ (h a)
    have := hi.colls b _ _ _ hlt hg a
    omega
  have := key a b
  have := key b a
  omega

theorem coll_inv {P : Prog R σ M} {W : R → σ} {N : ℕ} (hP : Matched P N) {s : St R σ M} (hi : Inv P W N s) (kind : ℕ) (f : R → (R → σ) → σ)
    (h : ∀ r, (P r)[s.pc r]? = some (.coll kind (f r))) : Inv P W N { s with pc := fun r => s.pc r + 1, loc := fun r => f r s.loc } := by
  set s' : St R σ M := { s with pc := fun r => s.pc r + 1, loc := fun r => f r s.loc } with hs'
  have hsn : ∀ r, s.snd r = false := by
    intro r
    by_contra hx
    obtain ⟨d, src, tag, pay, store, e⟩ := hi.snd r (by simpa using hx)
    rw [h r] at e; exact absurd (Option.some.inj e) (by simp)
  have hrn : ∀ r, s.rcv r = false := by
    intro r
    by_contra hx
    obtain ⟨d, src, tag, pay, store, e, -⟩ := hi.rcv r (by simpa using hx)
    rw [h r] at e; exact absurd (Option.some.inj e) (by simp)
  have hst : ∀ a n, sent s' a n ↔ n ≤ s.pc a := by
    intro a n; unfold sent; simp [hs', hsn a]; omega
  have hst0 : ∀ a n, sent s a n ↔ n < s.pc a := by
    intro a n; unfold sent; simp [hsn a]
  have hrt : ∀ a n, recvd s' a n ↔ n ≤ s.pc a := by
    intro a n; unfold recvd; simp [hs', hrn a]; omega
  have hrt0 : ∀ a n, recvd s a n ↔ n < s.pc a := by
    intro a n; unfold recvd; simp [hrn a]
  have hno : ∀ a b t n, msg P W a b t n ≠ none → n ≠ s.pc a ∧ n ≠ s.pc b := by
    intro a b t n hm
    obtain ⟨src, pay, store, e, -⟩ := msg_some hm
    have : n ≠ s.pc a := by
      rintro rfl; rw [h a] at e; exact absurd (Option.some.inj e) (by simp)
    exact ⟨this, by rw [← coll_same hP hi kind f h a b]; exact this⟩
  refine ⟨?_, ?_, ?_, ?_, ?_, ?_, ?_, hi.box⟩
  · intro r; exact lt_of_get hP (h r)
  · intro r n k' f' hn hc r'
    have := coll_same hP hi kind f h r r'
    show n < s.pc r' + 1
    have : n < s.pc r + 1 := hn
    omega
  · intro r
    show f r s.loc = lock P W (s.pc r + 1) r
    rw [lock_coll W (h r)]
    congr 1
    funext x
    rw [hi.loc x, coll_same hP hi kind f h x r]
  · intro a b t
    rw [show s'.chan a b t = s.chan a b t from rfl, hi.chan]
    apply filterMap_congr'
    intro n _
    symm
    apply under_same
    intro hm
    obtain ⟨e1, e2⟩ := hno a b t n hm
    rw [hst, hst0, hrt, hrt0]
    omega
  · intro n a b dst tag pay store hb hrv
    obtain ⟨src, pay', store', ha⟩ := hP.recv _ _ _ _ _ _ _ hb
    have hm : msg P W a b tag n ≠ none := by rw [msg_of ha]; simp
    obtain ⟨e1, e2⟩ := hno a b tag n hm
    rw [hrt] at hrv
    rw [hst]
    have := coll_same hP hi kind f h a b
    omega
  · intro r hx; rw [show s'.snd r = s.snd r from rfl, hsn r] at hx; exact absurd hx (by simp)
  · intro r hx; rw [show s'.rcv r = s.rcv r from rfl, hrn r] at hx; exact absurd hx (by simp)

theorem step_inv {P : Prog R σ M} {W : R → σ} {N : ℕ} (hP : Matched P N) {s s' : St R σ M} {b : Bool} (hi : Inv P W N s) (h : Step P b s s') :
    Inv P W N s' := by
  cases h with
  | comp _ r f h =>
    exact leave_inv hP hi r _ h (by simp) _ (by rw [lock_comp W h, hi.loc r]) (by simp) (by simp)
  | buffer _ r d src tag pay store h hs => exact buffer_inv hP hi r d src tag pay store h hs
  | recv _ r o dst tag pay store m l h hr hm => exact recv_inv hP hi r o dst tag pay store m l h hr hm
  | pass _ a b src dst tag pay pay' store store' ha hb hs hr hc => exact pass_inv hP hi a b src dst tag pay pay' store store' ha hb hs hr hc
  | finish _ r dst src tag pay store h hs hr =>
    refine leave_inv hP hi r _ h (by simp) _ ?_ ?_ ?_
    · rw [lock_xchg W h, hi.loc r]
      congr 1
      cases src with
      | none =>
        simp only [Option.bind_none]
        apply hi.box
        by_contra hx
        obtain ⟨d, o, t, p, st, e, -⟩ := hi.rcv r (by simpa using hx)
        rw [h] at e; simp at e
      | some o =>
        have hrt : s.rcv r = true := by rcases hr with h | h; · exact absurd h (by simp)
                                        · exact h
        obtain ⟨d, o', t, p, st, e, hbox⟩ := hi.rcv r hrt
        rw [h] at e
        simp only [Option.some.injEq, Instr.xchg.injEq] at e
        rw [hbox, ← e.2.1]
        rfl
    · intro d src' tag' pay' store' e
      simp only [Instr.xchg.injEq] at e
      rcases hs with h | h
      · rw [e.1] at h; exact absurd h (by simp)
      · exact h
    · intro d o tag' pay' store' e
      simp only [Instr.xchg.injEq] at e
      rcases hr with h | h
      · rw [e.2.1] at h; exact absurd h (by simp)
      · exact h
  | coll _ kind f h => exact coll_inv hP hi kind f h

theorem reach_inv {P : Prog R σ M} {W : R → σ} {N : ℕ} (hP : Matched P N) {s : St R σ M} (h : Reach P W s) : Inv P W N s := by
  induction h with
  | start => exact start_inv P W N
  | step b s s' _ hs ih => exact step_inv hP ih hs

/-! ## Theorems -/

/-- **C130 (results).** Whatever the schedule and whatever the library buffers, ranks that are through hold what they would hold had they run in
step, and no message is left over. -/
theorem C130_results (P : Prog R σ M) (N : ℕ) (hP : Matched P N) (W : R → σ) (s : St R σ M) (h : Reach P W s) (hd : Done P s) :
    s.loc = lock P W N ∧ ∀ a b t, s.chan a b t = [] := by
  have hi := reach_inv hP h
  have hpc : ∀ r, s.pc r = N := fun r => by rw [hd r, hP.len r]
  constructor
  · funext r
    rw [hi.loc r, hpc r]
  · intro a b t
    rw [hi.chan, List.filterMap_eq_nil_iff]
    intro n hn
    unfold under
    rw [if_neg]
    intro h
    exact h.2 (Or.inl (by rw [hpc]; exact List.mem_range.1 hn))

variable [Fintype R]

/-- **C130 (no deadlock).** As long as a rank is not through, something can happen that does not rely on the library buffering anything. -/
theorem C130_no_deadlock (P : Prog R σ M) (N : ℕ) (hP : Matched P N) (W : R → σ) (s : St R σ M) (h : Reach P W s) (hd : ¬ Done P s) :
    ∃ s', Step P false s s' := by
  have hi := reach_inv hP h
  unfold Done at hd
  push Not at hd
  obtain ⟨r0, hr0⟩ := hd
  obtain ⟨r, -, hmin⟩ := Finset.exists_min_image Finset.univ s.pc ⟨r0, Finset.mem_univ _⟩
  have hmin : ∀ x, s.pc r ≤ s.pc x := fun x => hmin x (Finset.mem_univ _)
  have hlt : s.pc r < N := by
    have := hmin r0
    have := hi.pc r0
    rw [hP.len] at hr0
    omega
  obtain ⟨i, hg⟩ : ∃ i, (P r)[s.pc r]? = some i := ⟨_, List.getElem?_eq_getElem (by rw [hP.len]; exact hlt)⟩
  cases i with
  | comp f => exact ⟨_, Step.comp s r f hg⟩
  | coll kind f =>
    have hall : ∀ x, s.pc x = s.pc r := by
      intro x
      by_contra hne
      obtain ⟨g, hx⟩ := hP.coll _ r x _ _ hg
      have := hi.colls x _ _ _ (lt_of_le_of_ne (hmin x) (Ne.symm hne)) hx r
      omega
    have : ∀ x, ∃ g, (P x)[s.pc x]? = some (.coll kind g) := by
      intro x
      rw [hall x]
      exact hP.coll _ r x _ _ hg
    choose g hgx using this
    exact ⟨_, Step.coll s kind g hgx⟩
  | xchg dst src tag pay store =>
    -- the send
    by_cases hs : dst = none ∨ s.snd r = true
    · by_cases hr : src = none ∨ s.rcv r = true
      · exact ⟨_, Step.finish s r dst src tag pay store hg hs hr⟩
      · push Not at hr
        obtain ⟨hsrc, hrv⟩ := hr
        obtain ⟨o, rfl⟩ := Option.ne_none_iff_exists'.1 hsrc
        have hrv : s.rcv r = false := by simpa using hrv
        obtain ⟨src', pay', store', ho⟩ := hP.recv _ _ _ _ _ _ _ hg
        have hnr : ¬ recvd s r (s.pc r) := by rintro (h | ⟨-, h⟩); · omega
                                              · rw [hrv] at h; exact absurd h (by simp)
        by_cases hso : sent s o (s.pc r)
        · have hne : s.chan o r tag ≠ [] := by
            rw [hi.chan, ne_eq, List.filterMap_eq_nil_iff]
            push Not
            refine ⟨s.pc r, List.mem_range.2 hlt, ?_⟩
            unfold under
            rw [if_pos ⟨hso, hnr⟩, msg_of ho]
            simp
          obtain ⟨m, l, hml⟩ := List.exists_cons_of_ne_nil hne
          exact ⟨_, Step.recv s r o dst tag pay store m l hg hrv hml⟩
        · have hpo : s.pc o = s.pc r := by
            have := hmin o
            by_contra hne
            exact hso (Or.inl (by omega))
          have hsn : s.snd o = false := by
            by_contra hx
            exact hso (Or.inr ⟨hpo.symm, by simpa using hx⟩)
          have hch : s.chan o r tag = [] := by
            rw [hi.chan, List.filterMap_eq_nil_iff]
            intro n _
            unfold under
            rw [if_neg]
            rintro ⟨h1, h2⟩
            rcases h1 with h1 | ⟨h1, h3⟩
            · exact h2 (Or.inl (by omega))
            · rw [hsn] at h3; exact absurd h3 (by simp)
          exact ⟨_, Step.pass s o r src' dst tag pay' pay store' store (by rw [hpo]; exact ho) hg hsn hrv hch⟩
    · push Not at hs
      obtain ⟨hdst, hsn⟩ := hs
      obtain ⟨b, rfl⟩ := Option.ne_none_iff_exists'.1 hdst
      have hsn : s.snd r = false := by simpa using hsn
      obtain ⟨dst', pay', store', hb⟩ := hP.send _ _ _ _ _ _ _ hg
      have hns : ¬ sent s r (s.pc r) := by rintro (h | ⟨-, h⟩); · omega
                                           · rw [hsn] at h; exact absurd h (by simp)
      have hnr : ¬ recvd s b (s.pc r) := fun h => hns (hi.first _ _ _ _ _ _ _ hb h)
      have hpb : s.pc b = s.pc r := by
        have := hmin b
        by_contra hne
        exact hnr (Or.inl (by omega))
      have hrv : s.rcv b = false := by
        by_contra hx
        exact hnr (Or.inr ⟨hpb.symm, by simpa using hx⟩)
      have hch : s.chan r b tag = [] := by
        rw [hi.chan, List.filterMap_eq_nil_iff]
        intro n _
        unfold under
        rw [if_neg]
        rintro ⟨h1, h2⟩
        rcases h1 with h1 | ⟨h1, h3⟩
        · exact h2 (Or.inl (by omega))
        · rw [hsn] at h3; exact absurd h3 (by simp)
      exact ⟨_, Step.pass s r b src dst' tag pay pay' store store' hg (by rw [hpb]; exact hb) hsn hrv hch⟩

/-- What has happened so far. -/
def progress (s : St R σ M) : ℕ := ∑ r, (4 * s.pc r + (if s.snd r then 1 else 0) + if s.rcv r then 1 else 0)

theorem step_progress [Nonempty R] {P : Prog R σ M} {b : Bool} {s s' : St R σ M} (h : Step P b s s') : progress s < progress s' := by
  have leave : ∀ r x, progress s < progress (s.leave r x) := by
    intro r x
    unfold progress
    apply Finset.sum_lt_sum
    · intro y _
      by_cases hy : y = r
      · subst hy; simp only [St.leave, Function.update_self]; split_ifs <;> simp <;> omega
      · simp only [St.leave, Function.update_of_ne hy]; rfl
    · exact ⟨r, Finset.mem_univ _, by simp only [St.leave, Function.update_self]; split_ifs <;> simp <;> omega⟩
  cases h with
  | comp _ r f h => exact leave _ _
  | buffer _ r d src tag pay store h hs =>
    unfold progress
    apply Finset.sum_lt_sum
    · intro y _
      by_cases hy : y = r
      · subst hy; simp [hs]
      · simp only [Function.update_of_ne hy]; rfl
    · exact ⟨r, Finset.mem_univ _, by simp [hs]⟩
  | recv _ r o dst tag pay store m l h hr hm =>
    unfold progress
    apply Finset.sum_lt_sum
    · intro y _
      by_cases hy : y = r
      · subst hy; simp [hr]
      · simp only [Function.update_of_ne hy]; rfl
    · exact ⟨r, Finset.mem_univ _, by simp [hr]⟩
  | pass _ a b src dst tag pay pay' store store' ha hb hs hr hc =>
    unfold progress
    have hle : ∀ y : R, (if s.snd y then 1 else 0) ≤ (if Function.update s.snd a true y then 1 else 0 : ℕ) := by
      intro y
      by_cases hy : y = a
      · subst hy; simp [hs]
      · simp [hy]
    have hle' : ∀ y : R, (if s.rcv y then 1 else 0) ≤ (if Function.update s.rcv b true y then 1 else 0 : ℕ) := by
      intro y
      by_cases hy : y = b
      · subst hy; simp [hr]
      · simp [hy]
    apply Finset.sum_lt_sum
    · intro y _
      have := hle y
      have := hle' y
      simp only
      omega
    · refine ⟨a, Finset.mem_univ _, ?_⟩
      have := hle' a
      simp only [Function.update_self, hs, if_true] at this ⊢
      simp only [Bool.false_eq_true, if_false]
      omega
  | finish _ r dst src tag pay store h hs hr => exact leave _ _
  | coll _ kind f h =>
    unfold progress
    apply Finset.sum_lt_sum_of_nonempty Finset.univ_nonempty
    intro y _
    simp only
    omega

/-- Schedules of a length. -/
inductive Sched (P : Prog R σ M) (W : R → σ) : ℕ → St R σ M → Prop
  | start : Sched P W 0 (start W)
  | step (n : ℕ) (b : Bool) (s s' : St R σ M) (h : Sched P W n s) (hs : Step P b s s') : Sched P W (n + 1) s'

theorem Sched.reach {P : Prog R σ M} {W : R → σ} {n : ℕ} {s : St R σ M} (h : Sched P W n s) : Reach P W s := by
  induction h with
  | start => exact Reach.start
  | step n b s s' _ hs ih => exact Reach.step b s s' ih hs

/-- **C130 (completion).** No schedule is longer than a bound set by the program. With `C130_no_deadlock` every schedule that is not abandoned gets all ranks
through. -/
theorem C130_completes [Nonempty R] (P : Prog R σ M) (N : ℕ) (hP : Matched P N) (W : R → σ) (n : ℕ) (s : St R σ M) (h : Sched P W n s) :
    n ≤ Fintype.card R * (4 * N + 2) := by
  have h1 : n ≤ progress s := by
    induction h with
    | start => exact Nat.zero_le _
    | step n b s s' _ hs ih => have := step_progress hs; omega
  have hi := reach_inv hP h.reach
  refine h1.trans ?_
  unfold progress
  refine (Finset.sum_le_card_nsmul _ _ (4 * N + 2) ?_).trans (by simp [Finset.card_univ])
  intro r _
  have := hi.pc r
  split_ifs <;> omega

/-- **C130 (some schedule finishes, without buffering).** From every state that can come about all ranks can get through. -/
theorem C130_finishes [Nonempty R] (P : Prog R σ M) (N : ℕ) (hP : Matched P N) (W : R → σ) (s : St R σ M) (h : Reach P W s) :
    ∃ s', Reach P W s' ∧ Done P s' := by
  obtain ⟨n, hn⟩ : ∃ n, Sched P W n s := by
    induction h with
    | start => exact ⟨0, .start⟩
    | step b s s' _ hs ih => obtain ⟨n, hn⟩ := ih; exact ⟨n + 1, .step n b s s' hn hs⟩
  generalize hk : Fintype.card R * (4 * N + 2) - n = k
  induction k using Nat.strong_induction_on generalizing n s with
  | _ k ih =>
    by_cases hd : Done P s
    · exact ⟨s, h, hd⟩
    · obtain ⟨s', hs'⟩ := C130_no_deadlock P N hP W s h hd
      have h1 := Sched.step n false s s' hn hs'
      have h2 := C130_completes P N hP W (n + 1) s' h1
      exact ih _ (by omega) s' h1.reach (n + 1) h1 rfl

/-! ## Programs made of instructions common to all ranks -/

/-- One instruction, for every rank, in which sends and receives correspond. -/
structure Agree (I : R → Instr R σ M) : Prop where
  send : ∀ (a b : R) src tag pay store, I a = .xchg (some b) src tag pay store → ∃ dst pay' store', I b = .xchg dst (some a) tag pay' store'
  recv : ∀ (a b : R) dst tag pay store, I b = .xchg dst (some a) tag pay store → ∃ src pay' store', I a = .xchg (some b) src tag pay' store'
  coll : ∀ (a b : R) kind f, I a = .coll kind f → ∃ g, I b = .coll kind g

/-- Ranks run the same list of instructions. -/
def common (L : List (R → Instr R σ M)) : Prog R σ M := fun r => L.map fun I => I r

theorem common_get (L : List (R → Instr R σ M)) (r : R) (n : ℕ) (i : Instr R σ M) (h : (common L r)[n]? = some i) :
    ∃ I ∈ L, i = I r ∧ ∀ x, (common L x)[n]? = some (I x) := by
  unfold common at h
  rw [List.getElem?_map, Option.map_eq_some_iff] at h
  obtain ⟨I, hI, rfl⟩ := h
  exact ⟨I, List.mem_of_getElem? hI, rfl, fun x => by unfold common; rw [List.getElem?_map, hI]; rfl⟩

theorem common_matched (L : List (R → Instr R σ M)) (h : ∀ I ∈ L, Agree I) : Matched (common L) L.length := by
  refine ⟨fun r => by simp [common], ?_, ?_, ?_⟩
  · intro n a b src tag pay store hg
    obtain ⟨I, hI, e, hx⟩ := common_get L a n _ hg
    obtain ⟨dst, pay', store', e'⟩ := (h I hI).send a b _ _ _ _ e.symm
    exact ⟨dst, pay', store', by rw [hx, e']⟩
  · intro n a b dst tag pay store hg
    obtain ⟨I, hI, e, hx⟩ := common_get L b n _ hg
    obtain ⟨src, pay', store', e'⟩ := (h I hI).recv a b _ _ _ _ e.symm
    exact ⟨src, pay', store', by rw [hx, e']⟩
  · intro n a b kind f hg
    obtain ⟨I, hI, e, hx⟩ := common_get L a n _ hg
    obtain ⟨g, e'⟩ := (h I hI).coll a b _ _ e.symm
    exact ⟨g, by rw [hx, e']⟩

/-- One instruction run by all ranks in step. -/
def exec (I : R → Instr R σ M) (W : R → σ) : R → σ := fun r => match I r with
  | .comp f => f (W r)
  | .xchg _ src _ _ store => store (W r) (src.bind fun o => match I o with | .xchg _ _ _ pay _ => some (pay (W o)) | _ => none)
  | .coll _ f => f W

theorem lock_exec (L : List (R → Instr R σ M)) (W : R → σ) (n : ℕ) (I : R → Instr R σ M) (h : L[n]? = some I) :
    lock (common L) W (n + 1) = exec I (lock (common L) W n) := by
  have hx : ∀ x, (common L x)[n]? = some (I x) := fun x => by unfold common; rw [List.getElem?_map, h]; rfl
  funext r
  unfold exec
  show (match (common L r)[n]? with
    | some (.comp f) => f (lock (common L) W n r)
    | some (.xchg _ src _ _ store) => store (lock (common L) W n r) (src.bind fun o => payload (common L) n o (lock (common L) W n o))
    | some (.coll _ f) => f (lock (common L) W n)
    | none => lock (common L) W n r) = _
  rw [hx r]
  cases hI : I r with
  | comp f => rfl
  | coll k f => rfl
  | xchg dst src tag pay store =>
    simp only
    congr 1
    congr 1
    funext o
    unfold payload
    rw [hx o]
    cases I o <;> rfl

theorem lock_fold (L : List (R → Instr R σ M)) (W : R → σ) (n : ℕ) (h : n ≤ L.length) :
    lock (common L) W n = (L.take n).foldl (fun V I => exec I V) W := by
  induction n with
  | zero => rfl
  | succ n ih =>
    have hn : n < L.length := h
    rw [lock_exec L W n L[n] (List.getElem?_eq_getElem hn), ih hn.le, List.take_succ_eq_append_getElem hn, List.foldl_append]
    rfl

theorem lock_all (L : List (R → Instr R σ M)) (W : R → σ) : lock (common L) W L.length = L.foldl (fun V I => exec I V) W := by
  rw [lock_fold L W _ le_rfl, List.take_length]

/-! ## `bound_prim` -/

open Bounds

section bound
variable {K : Type*} {d1 d2 d3 : Dim}

theorem left_right1 (d : Dim) (a b : Fin d.C.toNat) : toFin d (d.rightOf a) = some b ↔ toFin d (d.leftOf b) = some a := by
  have ha := a.2
  have hb := b.2
  unfold toFin Dim.rightOf Dim.leftOf
  constructor
  · intro h
    by_cases h1 : (a : ℤ) + 1 ≥ d.C
    · rw [if_pos h1] at h
      by_cases hp : d.periodic = true
      · rw [if_pos hp] at h
        simp only at h
        rw [dif_pos (by omega)] at h
        have hb0 : (b : ℕ) = 0 := by rw [← Option.some.inj h]; rfl
        rw [if_pos (by omega), if_pos hp]
        simp only
        rw [dif_pos (by omega)]
        congr 1
        apply Fin.ext
        simp only
        omega
      · rw [if_neg hp] at h; exact absurd h (by simp)
    · rw [if_neg h1] at h
      simp only at h
      rw [dif_pos (by omega)] at h
      have hb0 : (b : ℕ) = a + 1 := by rw [← Option.some.inj h]; simp only; omega
      rw [if_neg (by omega)]
      simp only
      rw [dif_pos (by omega)]
      congr 1
      apply Fin.ext
      simp only
      omega
  · intro h
    by_cases h1 : (b : ℤ) - 1 < 0
    · rw [if_pos h1] at h
      by_cases hp : d.periodic = true
      · rw [if_pos hp] at h
        simp only at h
        rw [dif_pos (by omega)] at h
        have hb0 : (a : ℕ) = (d.C - 1).toNat := by rw [← Option.some.inj h]
        rw [if_pos (by omega), if_pos hp]
        simp only
        rw [dif_pos (by omega)]
        congr 1
        apply Fin.ext
        simp only
        omega
      · rw [if_neg hp] at h; exact absurd h (by simp)
    · rw [if_neg h1] at h
      simp only at h
      rw [dif_pos (by omega)] at h
      have hb0 : (a : ℕ) = ((b : ℤ) - 1).toNat := by rw [← Option.some.inj h]
      rw [if_neg (by omega)]
      simp only
      rw [dif_pos (by omega)]
      congr 1
      apply Fin.ext
      simp only
      omega

/-- The right neighbour's left neighbour is the rank itself, and the other way round. -/
theorem left_right (d : Fin 3) (a b : Ranks d1 d2 d3) : right d1 d2 d3 d a = some b ↔ left d1 d2 d3 d b = some a := by
  obtain ⟨a1, a2, a3⟩ := a
  obtain ⟨b1, b2, b3⟩ := b
  fin_cases d
  · simp only [right, left, Option.map_eq_some_iff, Prod.mk.injEq]
    constructor
    · rintro ⟨c, h, rfl, rfl, rfl⟩; exact ⟨_, (left_right1 d1 _ _).1 h, rfl, rfl, rfl⟩
    · rintro ⟨c, h, rfl, rfl, rfl⟩; exact ⟨_, (left_right1 d1 _ _).2 h, rfl, rfl, rfl⟩
  · simp only [right, left, Option.map_eq_some_iff, Prod.mk.injEq]
    constructor
    · rintro ⟨c, h, rfl, rfl, rfl⟩; exact ⟨_, (left_right1 d2 _ _).1 h, rfl, rfl, rfl⟩
    · rintro ⟨c, h, rfl, rfl, rfl⟩; exact ⟨_, (left_right1 d2 _ _).2 h, rfl, rfl, rfl⟩
  · simp only [right, left, Option.map_eq_some_iff, Prod.mk.injEq]
    constructor
    · rintro ⟨c, h, rfl, rfl, rfl⟩; exact ⟨_, (left_right1 d3 _ _).1 h, rfl, rfl, rfl⟩
    · rintro ⟨c, h, rfl, rfl, rfl⟩; exact ⟨_, (left_right1 d3 _ _).2 h, rfl, rfl, rfl⟩

theorem agree_comp (f : R → σ → σ) : Agree (M := M) fun r : R => .comp (f r) :=
  ⟨fun _ _ _ _ _ _ h => by simp at h, fun _ _ _ _ _ _ h => by simp at h, fun _ _ _ _ h => by simp at h⟩

theorem agree_barrier : Agree (σ := σ) (M := M) (barrier : R → _) := by
  refine ⟨fun _ _ _ _ _ _ h => by simp [barrier] at h, fun _ _ _ _ _ _ h => by simp [barrier] at h, fun a b kind f h => ?_⟩
  simp only [barrier, Instr.coll.injEq] at h
  exact ⟨fun W => W b, by rw [← h.1]; rfl⟩

theorem agree_sync (d : Fin 3) (upper prims : Bool) : Agree (sync (K := K) d1 d2 d3 d upper prims) := by
  refine ⟨?_, ?_, ?_⟩
  · intro a b src tag pay store h
    simp only [sync, Instr.xchg.injEq] at h
    obtain ⟨h1, -, rfl, -⟩ := h
    have e : (if upper then right d1 d2 d3 d b else left d1 d2 d3 d b) = some a := by
      cases upper
      · simpa using (left_right d a b).1 (by simpa using h1)
      · simpa using (left_right d b a).2 (by simpa using h1)
    exact ⟨_, _, _, congrArg (fun s => Instr.xchg _ s _ _ _) e⟩
  · intro a b dst tag pay store h
    simp only [sync, Instr.xchg.injEq] at h
    obtain ⟨-, h1, rfl, -⟩ := h
    have e : (if upper then left d1 d2 d3 d a else right d1 d2 d3 d a) = some b := by
      cases upper
      · simpa using (left_right d a b).2 (by simpa using h1)
      · simpa using (left_right d b a).1 (by simpa using h1)
    exact ⟨_, _, _, congrArg (fun s => Instr.xchg s _ _ _ _) e⟩
  · intro a b kind f h
    simp [sync] at h

/-- One side of `bound_prim` as common instructions. -/
def sideL (d : Fin 3) (upper : Bool) (fill : ℤ → ℤ → (ℤ → Cell K) → ℤ → Cell K) :
    List (Ranks d1 d2 d3 → Instr (Ranks d1 d2 d3) (Zones K) (Zones K)) :=
  [fun r => .comp (fillSide d1 d2 d3 d upper fill r), sync d1 d2 d3 d upper true, sync d1 d2 d3 d upper false]

/-- `bound_prim` as common instructions. -/
def boundL (fill : Fin 3 → Bool → ℤ → ℤ → (ℤ → Cell K) → ℤ → Cell K) (chk : Ranks d1 d2 d3 → Zones K → Zones K) : List (Ranks d1 d2 d3 → Instr (Ranks d1 d2 d3) (Zones K) (Zones K)) :=
  [barrier] ++ sideL 0 false (fill 0 false) ++ sideL 0 true (fill 0 true) ++ sideL 1 false (fill 1 false)
    ++ sideL 1 true (fill 1 true) ++ sideL 2 false (fill 2 false) ++ sideL 2 true (fill 2 true) ++ [fun r => .comp (chk r), barrier]

theorem boundProg_common (fill : Fin 3 → Bool → ℤ → ℤ → (ℤ → Cell K) → ℤ → Cell K) (chk : Ranks d1 d2 d3 → Zones K → Zones K) : boundProg d1 d2 d3 fill chk = common (boundL fill chk) := rfl

theorem side_agree (d : Fin 3) (upper : Bool) (fill : ℤ → ℤ → (ℤ → Cell K) → ℤ → Cell K) : ∀ I ∈ sideL (d1 := d1) (d2 := d2) (d3 := d3) d upper fill, Agree I := by
  intro I hI
  simp only [sideL, List.mem_cons, List.not_mem_nil, or_false] at hI
  rcases hI with rfl | rfl | rfl
  · exact agree_comp _
  · exact agree_sync d upper true
  · exact agree_sync d upper false

theorem bound_agree (fill : Fin 3 → Bool → ℤ → ℤ → (ℤ → Cell K) → ℤ → Cell K) (chk : Ranks d1 d2 d3 → Zones K → Zones K) : ∀ I ∈ boundL (d1 := d1) (d2 := d2) (d3 := d3) fill chk, Agree I := by
  intro I hI
  simp only [boundL, List.mem_append, List.mem_cons, List.not_mem_nil, or_false] at hI
  rcases hI with ((((((rfl | h) | h) | h) | h) | h) | h) | rfl | rfl
  · exact agree_barrier
  all_goals first | exact side_agree _ _ _ I h | exact agree_barrier | exact agree_comp _

/-- Memory of all ranks agrees with the array over all ranks. -/
def Same (V : Ranks d1 d2 d3 → Zones K) (W : World (Cell K)) : Prop := ∀ (r : Ranks d1 d2 d3) i j k, V r i j k = W r.1 r.2.1 r.2.2 i j k

/-- The two exchanges of one side move the zones of the face. -/
theorem exec_pair (d : Fin 3) (upper : Bool) (V : Ranks d1 d2 d3 → Zones K) (r : Ranks d1 d2 d3) (i j k : ℤ) :
    exec (sync d1 d2 d3 d upper false) (exec (sync d1 d2 d3 d upper true) V) r i j k =
      match (if upper then right d1 d2 d3 d r else left d1 d2 d3 d r) with
      | none => V r i j k
      | some o => if face d1 d2 d3 d (if upper then size d1 d2 d3 d + NG else 0) i j k then
          shifted (V o) d (if upper then -size d1 d2 d3 d else size d1 d2 d3 d) i j k else V r i j k := by
  cases h : (if upper then right d1 d2 d3 d r else left d1 d2 d3 d r) with
  | none => simp only [exec, sync, h, Option.bind_none]
  | some o =>
    simp only [exec, sync, h, Option.bind_some, id]
    by_cases hf : face d1 d2 d3 d (if upper then size d1 d2 d3 d + NG else 0) i j k = true
    · simp only [hf, if_true, Bool.false_eq_true, if_false]
      -- flags are not touched by the first exchange
      have hp : ∀ (Y Y' : Zones K) (a : ℤ), (∀ i j k, (Y i j k).pflag = (Y' i j k).pflag) → (shifted Y d a i j k).pflag = (shifted Y' d a i j k).pflag := by
        intro Y Y' a hY
        fin_cases d <;> exact hY _ _ _
      rw [hp _ (V o)]
      intro i' j' k'
      cases (if upper then right d1 d2 d3 d o else left d1 d2 d3 d o) with
      | none => rfl
      | some o' =>
        simp only [Option.bind_some]
        split_ifs <;> rfl
    · simp only [Bool.not_eq_true] at hf
      simp only [hf, Bool.false_eq_true, if_false]

/-- Lower side of direction 1 on the array over all ranks. -/
def low1 (fill : ℤ → ℤ → (ℤ → Cell K) → ℤ → Cell K) (W : World (Cell K)) : World (Cell K) := fun c1 c2 c3 i j k =>
  if act d2 j ∧ act d3 k then syncL d1 (faceL (fill (glob d2 c2 j) (glob d3 c3 k)) fun c x => W c c2 c3 x j k) c1 i else W c1 c2 c3 i j k

/-- Upper side of direction 1 on the array over all ranks. -/
def high1 (fill : ℤ → ℤ → (ℤ → Cell K) → ℤ → Cell K) (W : World (Cell K)) : World (Cell K) := fun c1 c2 c3 i j k =>
  if act d2 j ∧ act d3 k then syncR d1 (faceR d1 (fill (glob d2 c2 j) (glob d3 c3 k)) fun c x => W c c2 c3 x j k) c1 i else W c1 c2 c3 i j k

theorem side1_low (fill : ℤ → ℤ → (ℤ → Cell K) → ℤ → Cell K) (V : Ranks d1 d2 d3 → Zones K) (W : World (Cell K)) (h : Same V W) :
    Same ((sideL 0 false fill).foldl (fun V I => exec I V) V) (low1 (d1 := d1) (d2 := d2) (d3 := d3) fill W) := by
  have hV : V = fun r i j k => W r.1 r.2.1 r.2.2 i j k := by funext r i j k; exact h r i j k
  subst hV
  rintro ⟨r1, r2, r3⟩ i j k
  have hr := r1.2
  simp only [sideL, List.foldl_cons, List.foldl_nil]
  rw [exec_pair]
  simp only [Bool.false_eq_true, if_false, size, shifted, exec, fillSide, face, decide_eq_true_eq, left, low1]
  by_cases hm : act d2 j ∧ act d3 k
  · simp only [if_pos hm, syncL, faceL, hm, and_true, true_and, if_true, zero_add]
    unfold Dim.leftOf
    by_cases h1 : (r1 : ℤ) - 1 < 0
    · simp only [if_pos h1]
      by_cases hp : d1.periodic = true
      · simp only [if_pos hp, toFin]
        rw [dif_pos (by omega)]
        simp only [Option.map_some]
        rw [show (((d1.C - 1).toNat : ℕ) : ℤ) = d1.C - 1 by omega]
        simp only [add_comm i d1.N]
      · simp only [if_neg hp, toFin, Option.map_none]
        split_ifs <;> rfl
    · simp only [if_neg h1, toFin]
      rw [dif_pos (by omega)]
      simp only [Option.map_some]
      rw [show ((((r1 : ℤ) - 1).toNat : ℕ) : ℤ) = (r1 : ℤ) - 1 by omega]
      simp only [add_comm i d1.N]
  · simp only [if_neg hm]
    have hm' : ∀ p : Prop, ¬ (p ∧ act d2 j ∧ act d3 k) := fun p h => hm h.2
    cases h : (toFin d1 (d1.leftOf r1)) with
    | none => simp only [Option.map_none, hm', and_false, if_false]
    | some o => simp only [Option.map_some, hm', and_false, if_false]

theorem side1_high (fill : ℤ → ℤ → (ℤ → Cell K) → ℤ → Cell K) (V : Ranks d1 d2 d3 → Zones K) (W : World (Cell K)) (h : Same V W) :
    Same ((sideL 0 true fill).foldl (fun V I => exec I V) V) (high1 (d1 := d1) (d2 := d2) (d3 := d3) fill W) := by
  have hV : V = fun r i j k => W r.1 r.2.1 r.2.2 i j k := by funext r i j k; exact h r i j k
  subst hV
  rintro ⟨r1, r2, r3⟩ i j k
  have hr := r1.2
  simp only [sideL, List.foldl_cons, List.foldl_nil]
  rw [exec_pair]
  simp only [if_true, size, shifted, exec, fillSide, face, decide_eq_true_eq, right, high1]
  by_cases hm : act d2 j ∧ act d3 k
  · simp only [if_pos hm, syncR, faceR, hm, and_true, true_and, if_true, show d1.N + NG + NG = d1.N + 2 * NG by ring]
    unfold Dim.rightOf
    by_cases h1 : (r1 : ℤ) + 1 ≥ d1.C
    · simp only [if_pos h1]
      by_cases hp : d1.periodic = true
      · simp only [if_pos hp, toFin]
        rw [dif_pos (by omega)]
        simp only [Option.map_some, Int.toNat_zero, Nat.cast_zero, ← sub_eq_add_neg]
      · simp only [if_neg hp, toFin, Option.map_none]
        split_ifs <;> rfl
    · simp only [if_neg h1, toFin]
      rw [dif_pos (by omega)]
      simp only [Option.map_some, ← sub_eq_add_neg]
      rw [show ((((r1 : ℤ) + 1).toNat : ℕ) : ℤ) = (r1 : ℤ) + 1 by omega]
  · simp only [if_neg hm]
    have hm' : ∀ p : Prop, ¬ (p ∧ act d2 j ∧ act d3 k) := fun p h => hm h.2
    cases h : (toFin d1 (d1.rightOf r1)) with
    | none => simp only [Option.map_none, hm', and_false, if_false]
    | some o => simp only [Option.map_some, hm', and_false, if_false]

/-- Lower side of direction 2 on the array over all ranks. -/
def low2 (fill : ℤ → ℤ → (ℤ → Cell K) → ℤ → Cell K) (W : World (Cell K)) : World (Cell K) := fun c1 c2 c3 i j k =>
  if all d1 i ∧ act d3 k then syncL d2 (faceL (fill (glob d1 c1 i) (glob d3 c3 k)) fun c x => W c1 c c3 i x k) c2 j else W c1 c2 c3 i j k

/-- Upper side of direction 2 on the array over all ranks. -/
def high2 (fill : ℤ → ℤ → (ℤ → Cell K) → ℤ → Cell K) (W : World (Cell K)) : World (Cell K) := fun c1 c2 c3 i j k =>
  if all d1 i ∧ act d3 k then syncR d2 (faceR d2 (fill (glob d1 c1 i) (glob d3 c3 k)) fun c x => W c1 c c3 i x k) c2 j else W c1 c2 c3 i j k

theorem side2_low (fill : ℤ → ℤ → (ℤ → Cell K) → ℤ → Cell K) (V : Ranks d1 d2 d3 → Zones K) (W : World (Cell K)) (h : Same V W) :
    Same ((sideL 1 false fill).foldl (fun V I => exec I V) V) (low2 (d1 := d1) (d2 := d2) (d3 := d3) fill W) := by
  have hV : V = fun r i j k => W r.1 r.2.1 r.2.2 i j k := by funext r i j k; exact h r i j k
  subst hV
  rintro ⟨r1, r2, r3⟩ i j k
  have hr := r2.2
  simp only [sideL, List.foldl_cons, List.foldl_nil]
  rw [exec_pair]
  simp only [Bool.false_eq_true, if_false, size, shifted, exec, fillSide, face, decide_eq_true_eq, left, low2]
  by_cases hm : all d1 i ∧ act d3 k
  · simp only [if_pos hm, syncL, faceL, hm, and_true, true_and, if_true, zero_add]
    unfold Dim.leftOf
    by_cases h1 : (r2 : ℤ) - 1 < 0
    · simp only [if_pos h1]
      by_cases hp : d2.periodic = true
      · simp only [if_pos hp, toFin]
        rw [dif_pos (by omega)]
        simp only [Option.map_some]
        rw [show (((d2.C - 1).toNat : ℕ) : ℤ) = d2.C - 1 by omega]
        simp only [add_comm j d2.N]
      · simp only [if_neg hp, toFin, Option.map_none]
        split_ifs <;> rfl
    · simp only [if_neg h1, toFin]
      rw [dif_pos (by omega)]
      simp only [Option.map_some]
      rw [show ((((r2 : ℤ) - 1).toNat : ℕ) : ℤ) = (r2 : ℤ) - 1 by omega]
      simp only [add_comm j d2.N]
  · simp only [if_neg hm]
    have hm' : ∀ p : Prop, ¬ (p ∧ all d1 i ∧ act d3 k) := fun p h => hm h.2
    cases h : (toFin d2 (d2.leftOf r2)) with
    | none => simp only [Option.map_none, hm', and_false, if_false]
    | some o => simp only [Option.map_some, hm', and_false, if_false]

theorem side2_high (fill : ℤ → ℤ → (ℤ → Cell K) → ℤ → Cell K) (V : Ranks d1 d2 d3 → Zones K) (W : World (Cell K)) (h : Same V W) :
    Same ((sideL 1 true fill).foldl (fun V I => exec I V) V) (high2 (d1 := d1) (d2 := d2) (d3 := d3) fill W) := by
  have hV : V = fun r i j k => W r.1 r.2.1 r.2.2 i j k := by funext r i j k; exact h r i j k
  subst hV
  rintro ⟨r1, r2, r3⟩ i j k
  have hr := r2.2
  simp only [sideL, List.foldl_cons, List.foldl_nil]
  rw [exec_pair]
  simp only [if_true, size, shifted, exec, fillSide, face, decide_eq_true_eq, right, high2]
  by_cases hm : all d1 i ∧ act d3 k
  · simp only [if_pos hm, syncR, faceR, hm, and_true, true_and, if_true, show d2.N + NG + NG = d2.N + 2 * NG by ring]
    unfold Dim.rightOf
    by_cases h1 : (r2 : ℤ) + 1 ≥ d2.C
    · simp only [if_pos h1]
      by_cases hp : d2.periodic = true
      · simp only [if_pos hp, toFin]
        rw [dif_pos (by omega)]
        simp only [Option.map_some, Int.toNat_zero, Nat.cast_zero, ← sub_eq_add_neg]
      · simp only [if_neg hp, toFin, Option.map_none]
        split_ifs <;> rfl
    · simp only [if_neg h1, toFin]
      rw [dif_pos (by omega)]
      simp only [Option.map_some, ← sub_eq_add_neg]
      rw [show ((((r2 : ℤ) + 1).toNat : ℕ) : ℤ) = (r2 : ℤ) + 1 by omega]
  · simp only [if_neg hm]
    have hm' : ∀ p : Prop, ¬ (p ∧ all d1 i ∧ act d3 k) := fun p h => hm h.2
    cases h : (toFin d2 (d2.rightOf r2)) with
    | none => simp only [Option.map_none, hm', and_false, if_false]
    | some o => simp only [Option.map_some, hm', and_false, if_false]

/-- Lower side of direction 3 on the array over all ranks. -/
def low3 (fill : ℤ → ℤ → (ℤ → Cell K) → ℤ → Cell K) (W : World (Cell K)) : World (Cell K) := fun c1 c2 c3 i j k =>
  if all d1 i ∧ all d2 j then syncL d3 (faceL (fill (glob d1 c1 i) (glob d2 c2 j)) fun c x => W c1 c2 c i j x) c3 k else W c1 c2 c3 i j k

/-- Upper side of direction 3 on the array over all ranks. -/
def high3 (fill : ℤ → ℤ → (ℤ → Cell K) → ℤ → Cell K) (W : World (Cell K)) : World (Cell K) := fun c1 c2 c3 i j k =>
  if all d1 i ∧ all d2 j then syncR d3 (faceR d3 (fill (glob d1 c1 i) (glob d2 c2 j)) fun c x => W c1 c2 c i j x) c3 k else W c1 c2 c3 i j k

theorem side3_low (fill : ℤ → ℤ → (ℤ → Cell K) → ℤ → Cell K) (V : Ranks d1 d2 d3 → Zones K) (W : World (Cell K)) (h : Same V W) :
    Same ((sideL 2 false fill).foldl (fun V I => exec I V) V) (low3 (d1 := d1) (d2 := d2) (d3 := d3) fill W) := by
  have hV : V = fun r i j k => W r.1 r.2.1 r.2.2 i j k := by funext r i j k; exact h r i j k
  subst hV
  rintro ⟨r1, r2, r3⟩ i j k
  have hr := r3.2
  simp only [sideL, List.foldl_cons, List.foldl_nil]
  rw [exec_pair]
  simp only [Bool.false_eq_true, if_false, size, shifted, exec, fillSide, face, decide_eq_true_eq, left, low3]
  by_cases hm : all d1 i ∧ all d2 j
  · simp only [if_pos hm, syncL, faceL, hm, and_true, true_and, if_true, zero_add]
    unfold Dim.leftOf
    by_cases h1 : (r3 : ℤ) - 1 < 0
    · simp only [if_pos h1]
      by_cases hp : d3.periodic = true
      · simp only [if_pos hp, toFin]
        rw [dif_pos (by omega)]
        simp only [Option.map_some]
        rw [show (((d3.C - 1).toNat : ℕ) : ℤ) = d3.C - 1 by omega]
        simp only [add_comm k d3.N]
      · simp only [if_neg hp, toFin, Option.map_none]
        split_ifs <;> rfl
    · simp only [if_neg h1, toFin]
      rw [dif_pos (by omega)]
      simp only [Option.map_some]
      rw [show ((((r3 : ℤ) - 1).toNat : ℕ) : ℤ) = (r3 : ℤ) - 1 by omega]
      simp only [add_comm k d3.N]
  · simp only [if_neg hm]
    have hm' : ∀ p : Prop, ¬ (p ∧ all d1 i ∧ all d2 j) := fun p h => hm h.2
    cases h : (toFin d3 (d3.leftOf r3)) with
    | none => simp only [Option.map_none, hm', and_false, if_false]
    | some o => simp only [Option.map_some, hm', and_false, if_false]

theorem side3_high (fill : ℤ → ℤ → (ℤ → Cell K) → ℤ → Cell K) (V : Ranks d1 d2 d3 → Zones K) (W : World (Cell K)) (h : Same V W) :
    Same ((sideL 2 true fill).foldl (fun V I => exec I V) V) (high3 (d1 := d1) (d2 := d2) (d3 := d3) fill W) := by
  have hV : V = fun r i j k => W r.1 r.2.1 r.2.2 i j k := by funext r i j k; exact h r i j k
  subst hV
  rintro ⟨r1, r2, r3⟩ i j k
  have hr := r3.2
  simp only [sideL, List.foldl_cons, List.foldl_nil]
  rw [exec_pair]
  simp only [if_true, size, shifted, exec, fillSide, face, decide_eq_true_eq, right, high3]
  by_cases hm : all d1 i ∧ all d2 j
  · simp only [if_pos hm, syncR, faceR, hm, and_true, true_and, if_true, show d3.N + NG + NG = d3.N + 2 * NG by ring]
    unfold Dim.rightOf
    by_cases h1 : (r3 : ℤ) + 1 ≥ d3.C
    · simp only [if_pos h1]
      by_cases hp : d3.periodic = true
      · simp only [if_pos hp, toFin]
        rw [dif_pos (by omega)]
        simp only [Option.map_some, Int.toNat_zero, Nat.cast_zero, ← sub_eq_add_neg]
      · simp only [if_neg hp, toFin, Option.map_none]
        split_ifs <;> rfl
    · simp only [if_neg h1, toFin]
      rw [dif_pos (by omega)]
      simp only [Option.map_some, ← sub_eq_add_neg]
      rw [show ((((r3 : ℤ) + 1).toNat : ℕ) : ℤ) = (r3 : ℤ) + 1 by omega]
  · simp only [if_neg hm]
    have hm' : ∀ p : Prop, ¬ (p ∧ all d1 i ∧ all d2 j) := fun p h => hm h.2
    cases h : (toFin d3 (d3.rightOf r3)) with
    | none => simp only [Option.map_none, hm', and_false, if_false]
    | some o => simp only [Option.map_some, hm', and_false, if_false]

theorem stage1_split [Field K] (cfg : Cfg K) (fL fR : ℤ → ℤ → (ℤ → Cell K) → ℤ → Cell K) (W : World (Cell K)) :
    stage1 cfg fL fR W = high1 (d1 := cfg.d1) (d2 := cfg.d2) (d3 := cfg.d3) fR (low1 (d1 := cfg.d1) (d2 := cfg.d2) (d3 := cfg.d3) fL W) := by
  funext c1 c2 c3 i j k
  unfold stage1 high1 low1 lineStage
  by_cases h : act cfg.d2 j ∧ act cfg.d3 k
  · simp only [if_pos h]
  · simp only [if_neg h]

theorem stage2_split [Field K] (cfg : Cfg K) (fL fR : (ℤ → Cell K) → ℤ → Cell K) (W : World (Cell K)) :
    stage2 cfg fL fR W = high2 (d1 := cfg.d1) (d2 := cfg.d2) (d3 := cfg.d3) (fun _ _ => fR) (low2 (d1 := cfg.d1) (d2 := cfg.d2) (d3 := cfg.d3) (fun _ _ => fL) W) := by
  funext c1 c2 c3 i j k
  unfold stage2 high2 low2 lineStage
  by_cases h : all cfg.d1 i ∧ act cfg.d3 k
  · simp only [if_pos h]
  · simp only [if_neg h]

theorem stage3_split [Field K] (cfg : Cfg K) (fL fR : (ℤ → Cell K) → ℤ → Cell K) (W : World (Cell K)) :
    stage3 cfg fL fR W = high3 (d1 := cfg.d1) (d2 := cfg.d2) (d3 := cfg.d3) (fun _ _ => fR) (low3 (d1 := cfg.d1) (d2 := cfg.d2) (d3 := cfg.d3) (fun _ _ => fL) W) := by
  funext c1 c2 c3 i j k
  unfold stage3 high3 low3 lineStage
  by_cases h : all cfg.d1 i ∧ all cfg.d2 j
  · simp only [if_pos h]
  · simp only [if_neg h]

theorem exec_barrier (V : R → σ) : exec (M := M) (barrier : R → _) V = V := rfl

theorem lock_bound (fill : Fin 3 → Bool → ℤ → ℤ → (ℤ → Cell K) → ℤ → Cell K) (chk : Ranks d1 d2 d3 → Zones K → Zones K) (V : Ranks d1 d2 d3 → Zones K) (W : World (Cell K)) (h : Same V W) :
    ∃ V', Same V' (high3 (d1 := d1) (d2 := d2) (d3 := d3) (fill 2 true) <| low3 (d1 := d1) (d2 := d2) (d3 := d3) (fill 2 false) <|
        high2 (d1 := d1) (d2 := d2) (d3 := d3) (fill 1 true) <| low2 (d1 := d1) (d2 := d2) (d3 := d3) (fill 1 false) <|
        high1 (d1 := d1) (d2 := d2) (d3 := d3) (fill 0 true) <| low1 (d1 := d1) (d2 := d2) (d3 := d3) (fill 0 false) W) ∧
      (boundL (d1 := d1) (d2 := d2) (d3 := d3) fill chk).foldl (fun V I => exec I V) V = fun r => chk r (V' r) := by
  unfold boundL
  simp only [List.foldl_append]
  refine ⟨_, ?_, rfl⟩
  exact side3_high _ _ _ (side3_low _ _ _ (side2_high _ _ _ (side2_low _ _ _ (side1_high _ _ _ (side1_low _ _ _ h)))))

/-- The boundary update run in step is that of all ranks at once. -/
theorem bound_fold [Field K] (cfg : Cfg K) (fill : Fin 3 → Bool → ℤ → ℤ → (ℤ → Cell K) → ℤ → Cell K) (hf : fills cfg = some fill)
    (chk : Ranks cfg.d1 cfg.d2 cfg.d3 → Zones K → Zones K) (V : Ranks cfg.d1 cfg.d2 cfg.d3 → Zones K) (W : World (Cell K)) (h : Same V W) :
    ∃ W', boundPrim cfg W = some W' ∧
      (boundL (d1 := cfg.d1) (d2 := cfg.d2) (d3 := cfg.d3) fill chk).foldl (fun V I => exec I V) V = fun r => chk r (W' r.1 r.2.1 r.2.2) := by
  obtain ⟨V', h3, h4⟩ := lock_bound fill chk V W h
  unfold fills at hf
  simp only [Option.bind_eq_bind, Option.bind_eq_some_iff, Option.some.injEq] at hf
  obtain ⟨f1L, e1, f1R, e2, f2L, e3, f2R, e4, f3L, e5, f3R, e6, rfl⟩ := hf
  refine ⟨stage3 cfg f3L f3R (stage2 cfg f2L f2R (stage1 cfg f1L f1R W)), ?_, ?_⟩
  · unfold boundPrim
    simp only [Option.bind_eq_bind, e1, e2, e3, e4, e5, e6, Option.bind_some]
  · rw [h4, stage1_split, stage2_split, stage3_split]
    funext r
    congr 1
    funext i j k
    exact h3 r i j k

/-- **C130 (boundary update).** Whatever the interleaving of the ranks and whatever the library buffers, once all ranks have left the boundary update their
zones are those of the update done on all ranks at once (`Bounds.boundPrim`, which C18 and C56 are about) with the inflow checks of the rank, and no
message is left over. -/
theorem C130_bound_prim [Field K] (cfg : Cfg K) (W : World (Cell K)) (fill : Fin 3 → Bool → ℤ → ℤ → (ℤ → Cell K) → ℤ → Cell K) (hf : fills cfg = some fill)
    (chk : Ranks cfg.d1 cfg.d2 cfg.d3 → Zones K → Zones K) (s : St (Ranks cfg.d1 cfg.d2 cfg.d3) (Zones K) (Zones K))
    (h : Reach (boundProg cfg.d1 cfg.d2 cfg.d3 fill chk) (fun r i j k => W r.1 r.2.1 r.2.2 i j k) s) (hd : Done (boundProg cfg.d1 cfg.d2 cfg.d3 fill chk) s) :
    ∃ W', boundPrim cfg W = some W' ∧ (∀ r, s.loc r = chk r (W' r.1 r.2.1 r.2.2)) ∧ ∀ a b t, s.chan a b t = [] := by
  have hM : Matched (boundProg cfg.d1 cfg.d2 cfg.d3 fill chk) (boundL (d1 := cfg.d1) (d2 := cfg.d2) (d3 := cfg.d3) fill chk).length := by
    rw [boundProg_common]; exact common_matched _ (bound_agree fill chk)
  obtain ⟨h1, h2⟩ := C130_results _ _ hM _ s h hd
  obtain ⟨W', e1, e2⟩ := bound_fold cfg fill hf chk (fun r i j k => W r.1 r.2.1 r.2.2 i j k) W (fun _ _ _ _ => rfl)
  refine ⟨W', e1, fun r => ?_, h2⟩
  rw [h1, boundProg_common, lock_all, e2]

/-- **C130 (boundary update completes).** The boundary update never blocks, and every schedule of it ends. -/
theorem C130_bound_completes [Nonempty (Ranks d1 d2 d3)] (fill : Fin 3 → Bool → ℤ → ℤ → (ℤ → Cell K) → ℤ → Cell K) (chk : Ranks d1 d2 d3 → Zones K → Zones K) (V : Ranks d1 d2 d3 → Zones K)
    (n : ℕ) (s : St (Ranks d1 d2 d3) (Zones K) (Zones K)) (h : Sched (boundProg d1 d2 d3 fill chk) V n s) :
    (Done (boundProg d1 d2 d3 fill chk) s ∨ ∃ s', Step (boundProg d1 d2 d3 fill chk) false s s') ∧ n ≤ 86 * Fintype.card (Ranks d1 d2 d3) := by
  have hM : Matched (boundProg d1 d2 d3 fill chk) (boundL (d1 := d1) (d2 := d2) (d3 := d3) fill chk).length := by
    rw [boundProg_common]; exact common_matched _ (bound_agree fill chk)
  constructor
  · by_cases hd : Done (boundProg d1 d2 d3 fill chk) s
    · exact Or.inl hd
    · exact Or.inr (C130_no_deadlock _ _ hM V s h.reach hd)
  · have := C130_completes _ _ hM V n s h
    have e : (boundL (d1 := d1) (d2 := d2) (d3 := d3) fill chk).length = 21 := rfl
    rw [e] at this
    omega

/-! ## Whole steps -/

theorem agree_lift {τ : Type*} (get : τ → σ) (set : τ → σ → τ) {I : R → Instr R σ M} (h : Agree I) : Agree fun r => lift get set r (I r) := by
  refine ⟨?_, ?_, ?_⟩
  · intro a b src tag pay store e
    cases hI : I a with
    | comp f => simp only [hI, lift] at e; exact absurd e (by simp)
    | coll k f => simp only [hI, lift] at e; exact absurd e (by simp)
    | xchg dst' src' tag' pay' store' =>
      simp only [hI, lift, Instr.xchg.injEq] at e
      obtain ⟨rfl, rfl, rfl, -, -⟩ := e
      obtain ⟨d, p, st, e'⟩ := h.send a b _ _ _ _ hI
      exact ⟨d, _, _, by simp only [e', lift]; rfl⟩
  · intro a b dst tag pay store e
    cases hI : I b with
    | comp f => simp only [hI, lift] at e; exact absurd e (by simp)
    | coll k f => simp only [hI, lift] at e; exact absurd e (by simp)
    | xchg dst' src' tag' pay' store' =>
      simp only [hI, lift, Instr.xchg.injEq] at e
      obtain ⟨rfl, rfl, rfl, -, -⟩ := e
      obtain ⟨d, p, st, e'⟩ := h.recv a b _ _ _ _ hI
      exact ⟨d, _, _, by simp only [e', lift]; rfl⟩
  · intro a b kind f e
    cases hI : I a with
    | comp f => simp only [hI, lift] at e; exact absurd e (by simp)
    | xchg dst' src' tag' pay' store' => simp only [hI, lift] at e; exact absurd e (by simp)
    | coll k f =>
      simp only [hI, lift, Instr.coll.injEq] at e
      obtain ⟨rfl, -⟩ := e
      obtain ⟨g, e'⟩ := h.coll a b _ _ hI
      exact ⟨_, by simp only [e', lift]; rfl⟩

theorem agree_coll (kind : ℕ) (f : R → (R → σ) → σ) : Agree (M := M) fun r : R => .coll kind (f r) := by
  refine ⟨fun _ _ _ _ _ _ h => by simp at h, fun _ _ _ _ _ _ h => by simp at h, fun a b k g h => ?_⟩
  simp only [Instr.coll.injEq] at h
  exact ⟨f b, by rw [← h.1]⟩

/-- A program all ranks run alike. -/
def Alike (P : Prog R σ M) : Prop := ∃ L : List (R → Instr R σ M), P = common L ∧ ∀ I ∈ L, Agree I

theorem Alike.append {P Q : Prog R σ M} (hP : Alike P) (hQ : Alike Q) : Alike fun r => P r ++ Q r := by
  obtain ⟨L, rfl, hL⟩ := hP
  obtain ⟨L', rfl, hL'⟩ := hQ
  refine ⟨L ++ L', by funext r; simp [common], fun I hI => ?_⟩
  rcases List.mem_append.1 hI with h | h
  · exact hL I h
  · exact hL' I h

theorem Alike.nil : Alike fun _ : R => ([] : List (Instr R σ M)) := ⟨[], rfl, by simp⟩

theorem Alike.cons {I : R → Instr R σ M} {P : Prog R σ M} (hI : Agree I) (hP : Alike P) : Alike fun r => I r :: P r := by
  obtain ⟨L, rfl, hL⟩ := hP
  refine ⟨I :: L, by funext r; simp [common], fun J hJ => ?_⟩
  rcases List.mem_cons.1 hJ with rfl | h
  · exact hI
  · exact hL J h

theorem Alike.lift {τ : Type*} (get : τ → σ) (set : τ → σ → τ) {P : Prog R σ M} (hP : Alike P) :
    Alike fun r => (P r).map (Messages.lift get set r) := by
  obtain ⟨L, rfl, hL⟩ := hP
  refine ⟨L.map fun I r => Messages.lift get set r (I r), by funext r; simp [common, Function.comp_def], fun J hJ => ?_⟩
  obtain ⟨I, hI, rfl⟩ := List.mem_map.1 hJ
  exact agree_lift get set (hL I hI)

theorem Alike.matched {P : Prog R σ M} (hP : Alike P) : ∃ N, Matched P N := by
  obtain ⟨L, rfl, hL⟩ := hP
  exact ⟨_, common_matched L hL⟩

theorem alike_fixup (f : R → σ → σ) : Alike (fixupProg (M := M) f) :=
  .cons agree_barrier (.cons (agree_comp _) (.cons agree_barrier .nil))

theorem alike_repair (again : R → Bool) (f g : R → σ → σ) (b : Bool) (h : ∀ r, again r = b) : Alike (repairProg (M := M) again f g) := by
  have e : repairProg (M := M) again f g = fun r => (([barrier r, .comp (f r)] ++ if b then fixupProg g r else []) ++ [barrier r]) := by
    funext r; unfold repairProg; rw [h r]
  rw [e]
  refine .append (.append (.cons agree_barrier (.cons (agree_comp _) .nil)) ?_) (.cons agree_barrier .nil)
  cases b
  · exact .nil
  · exact alike_fixup g

theorem alike_stage (w : Stage R σ) (b : Bool) (h : ∀ r, w.again r = b) : Alike (stageProg (M := M) w) := by
  refine .append (.append ?_ (alike_fixup _)) (alike_repair _ _ _ b h)
  exact .cons (agree_comp _) <| .cons agree_barrier <| .cons (agree_comp _) <| .cons (agree_coll _ _) <| .cons (agree_coll _ _) <|
    .cons (agree_coll _ _) <| .cons (agree_comp _) <| .cons agree_barrier <| .cons agree_barrier <| .cons (agree_comp _) <|
    .cons agree_barrier <| .cons agree_barrier <| .cons (agree_comp _) <| .cons agree_barrier .nil

theorem alike_bound (fill : Fin 3 → Bool → ℤ → ℤ → (ℤ → Cell K) → ℤ → Cell K) (chk : Ranks d1 d2 d3 → Zones K → Zones K) : Alike (boundProg d1 d2 d3 fill chk) :=
  ⟨boundL fill chk, boundProg_common fill chk, bound_agree fill chk⟩

/-- In every repair of the run either all ranks give up all their zones or none does. -/
def SameRepairs {τ : Type*} (ws : List (StepWork R τ)) : Prop := ∀ w ∈ ws, (∃ b, ∀ r, w.one.again r = b) ∧ ∃ b, ∀ r, w.two.again r = b

theorem alike_run {τ : Type*} (fill : Fin 3 → Bool → ℤ → ℤ → (ℤ → Cell K) → ℤ → Cell K) (chk : Ranks d1 d2 d3 → Zones K → Zones K) (A : Arrays τ K) (ws : List (StepWork (Ranks d1 d2 d3) τ))
    (h : SameRepairs ws) : Alike (runProg d1 d2 d3 fill chk A ws) := by
  induction ws with
  | nil => exact .nil
  | cons w ws ih =>
    have e : runProg d1 d2 d3 fill chk A (w :: ws) = fun r => stepProg d1 d2 d3 fill chk A w r ++ runProg d1 d2 d3 fill chk A ws r := by
      funext r; simp [runProg]
    rw [e]
    obtain ⟨⟨b, hb⟩, ⟨c, hc⟩⟩ := h w (by simp)
    refine .append ?_ (ih fun v hv => h v (by simp [hv]))
    exact .append (.append (.append (.append (.append (.cons (agree_comp _) .nil) (alike_stage w.one b hb)) (.lift _ _ (alike_bound fill chk)))
      (alike_stage w.two c hc)) (.lift _ _ (alike_bound fill chk))) (.cons (agree_comp _) (.cons (agree_coll _ _) (.cons (agree_comp _) .nil)))

/-- **C131 (runs), partial.** A fluid run of any number of steps never blocks, every schedule of it ends, and what ranks hold at the end does not depend on
the schedule, as long as in every repair either all ranks give up all their zones or none does. Missing: other repairs; `C131_full_false`. -/
theorem C131_run_partial {τ : Type*} [Nonempty (Ranks d1 d2 d3)] (fill : Fin 3 → Bool → ℤ → ℤ → (ℤ → Cell K) → ℤ → Cell K) (chk : Ranks d1 d2 d3 → Zones K → Zones K) (A : Arrays τ K)
    (ws : List (StepWork (Ranks d1 d2 d3) τ)) (hw : SameRepairs ws) (V : Ranks d1 d2 d3 → τ) :
    (∀ s, Reach (runProg d1 d2 d3 fill chk A ws) V s → Done (runProg d1 d2 d3 fill chk A ws) s ∨ ∃ s', Step (runProg d1 d2 d3 fill chk A ws) false s s') ∧
    (∃ N, ∀ n s, Sched (runProg d1 d2 d3 fill chk A ws) V n s → n ≤ N) ∧
    ∃ final : Ranks d1 d2 d3 → τ, ∀ s, Reach (runProg d1 d2 d3 fill chk A ws) V s → Done (runProg d1 d2 d3 fill chk A ws) s →
      s.loc = final ∧ ∀ a b t, s.chan a b t = [] := by
  obtain ⟨N, hN⟩ := (alike_run fill chk A ws hw).matched
  refine ⟨fun s hs => ?_, ⟨_, fun n s h => C130_completes _ N hN V n s h⟩, ⟨_, fun s h hd => C130_results _ N hN V s h hd⟩⟩
  by_cases hd : Done (runProg d1 d2 d3 fill chk A ws) s
  · exact Or.inl hd
  · exact Or.inr (C130_no_deadlock _ N hN V s hs hd)

end bound

/-! ## The repair blocks a run -/

/-- `fixup_utoprim` gives up all zones of a rank (core/fixup.c:355-356 calls `fixup`). By C17 the passes allowed here are enough for its loop to end. -/
def GaveUp (d1 d2 d3 : Dim) (fix : FixupUtoprim.Zone → (Fin 5 → ℚ) → (Fin 5 → ℚ)) (Z : Zones ℚ) : Prop :=
  (FixupUtoprim.fixupUtoprim ⟨d1.N.toNat, d2.N.toNat, d3.N.toNat⟩ fix (d1.N.toNat * d2.N.toNat * d3.N.toNat + 2)
    (fun z ip => (Z z.1 z.2.1 z.2.2).prim (ip.castLE (by omega))) (fun z => (Z z.1 z.2.1 z.2.2).pflag)).map Prod.snd = some true

/-- **C131 in full.** Whatever zones failed on whatever ranks, the repair and the boundary update after it never block. -/
def FullC131 : Prop := ∀ (cfg : Cfg ℚ) (fill : Fin 3 → Bool → ℤ → ℤ → (ℤ → Cell ℚ) → ℤ → Cell ℚ), fills cfg = some fill →
  cfg.d1.WF → cfg.d2.WF → cfg.d3.WF → ∀ (fix : FixupUtoprim.Zone → (Fin 5 → ℚ) → (Fin 5 → ℚ)) (chk work floors : Ranks cfg.d1 cfg.d2 cfg.d3 → Zones ℚ → Zones ℚ)
    (W : Ranks cfg.d1 cfg.d2 cfg.d3 → Zones ℚ) (again : Ranks cfg.d1 cfg.d2 cfg.d3 → Bool), (∀ r, again r = true ↔ GaveUp cfg.d1 cfg.d2 cfg.d3 fix (W r)) →
    ∀ s, Reach (fun r => repairProg again work floors r ++ boundProg cfg.d1 cfg.d2 cfg.d3 fill chk r) W s →
      Done (fun r => repairProg again work floors r ++ boundProg cfg.d1 cfg.d2 cfg.d3 fill chk r) s ∨
      ∃ b s', Step (fun r => repairProg again work floors r ++ boundProg cfg.d1 cfg.d2 cfg.d3 fill chk r) b s s'

/-- Two ranks of three zones in a row. -/
def pair : Cfg ℚ :=
  { d1 := ⟨3, 2, .outflow, .outflow⟩, d2 := ⟨1, 1, .outflow, .outflow⟩, d3 := ⟨1, 1, .outflow, .outflow⟩, gdet := fun _ _ => 1,
    probL := fun _ _ _ => ⟨fun _ => 0, 0⟩, probR := fun _ _ _ => ⟨fun _ => 0, 0⟩ }

/-- All zones of the first rank failed, none of the second. -/
def failing (r : Ranks pair.d1 pair.d2 pair.d3) : Zones ℚ := fun _ _ _ => ⟨fun _ => 1, if r.1.val = 0 then 1 else 0⟩

theorem failing_gaveUp (r : Ranks pair.d1 pair.d2 pair.d3) : decide (r.1.val = 0) = true ↔ GaveUp pair.d1 pair.d2 pair.d3 (fun _ P => P) (failing r) := by
  unfold GaveUp
  revert r
  decide +kernel

/-- **C131 (the code).** It does block: a rank that gives up all its zones calls `fixup`, whose timers are barriers of their own. Its barriers are taken by
the other ranks for later ones, until it waits in a barrier and they wait for its zones. -/
theorem C131_full_false : ¬ FullC131 := by
  intro hfull
  have hf : (fills pair).isSome = true := by decide +kernel
  obtain ⟨fill, hfill⟩ := Option.isSome_iff_exists.1 hf
  have h := hfull pair fill hfill
    ⟨by norm_num [pair], by norm_num [pair], by simp [pair], by norm_num [pair, NG]⟩
    ⟨by norm_num [pair], by norm_num [pair], by simp [pair], by simp [pair, Dim.periodic]⟩
    ⟨by norm_num [pair], by norm_num [pair], by simp [pair], by simp [pair, Dim.periodic]⟩
    (fun _ P => P) (fun _ Z => Z) (fun _ Z => Z) (fun _ Z => Z) failing (fun r => decide (r.1.val = 0)) failing_gaveUp
  set P : Prog (Ranks pair.d1 pair.d2 pair.d3) (Zones ℚ) (Zones ℚ) :=
    fun r => repairProg (fun r => decide (r.1.val = 0)) (fun _ Z => Z) (fun _ Z => Z) r ++ boundProg pair.d1 pair.d2 pair.d3 fill (fun _ Z => Z) r with hP
  let a : Ranks pair.d1 pair.d2 pair.d3 := (⟨0, by decide⟩, ⟨0, by decide⟩, ⟨0, by decide⟩)
  let b : Ranks pair.d1 pair.d2 pair.d3 := (⟨1, by decide⟩, ⟨0, by decide⟩, ⟨0, by decide⟩)
  have hab : ∀ r, r = a ∨ r = b := by decide
  have hne : a ≠ b := by decide
  have hba : b ≠ a := hne.symm
  have all : ∀ Q : Ranks pair.d1 pair.d2 pair.d3 → Prop, Q a → Q b → ∀ r, Q r := by
    intro Q ha hb r
    rcases hab r with rfl | rfl
    · exact ha
    · exact hb
  -- the run
  obtain ⟨s, hs, hpa, hpb, hsnd, hrcv, hchan⟩ : ∃ s, Reach P failing s ∧ s.pc a = 5 ∧ s.pc b = 5 ∧ (∀ r, s.snd r = false) ∧ (∀ r, s.rcv r = false) ∧
      ∀ x y t, s.chan x y t = [] := by
    have h0 : Reach P failing (start failing) := .start
    have h1 := Reach.step _ _ _ h0 (Step.coll _ 0 (fun r W => W r) (all _ rfl rfl))
    have h2 := Reach.step _ _ _ h1 (Step.comp _ a (fun Z => Z) rfl)
    have h3 := Reach.step _ _ _ h2 (Step.comp _ b (fun Z => Z) rfl)
    have h4 := Reach.step _ _ _ h3 (Step.coll _ 0 (fun r W => W r) (all _ rfl rfl))
    have h5 := Reach.step _ _ _ h4 (Step.comp _ a (fun Z => Z) rfl)
    have h6 := Reach.step _ _ _ h5 (Step.coll _ 0 (fun r W => W r) (all _ rfl rfl))
    have h7 := Reach.step _ _ _ h6 (Step.comp _ b (fillSide pair.d1 pair.d2 pair.d3 0 false (fill 0 false) b) rfl)
    exact ⟨_, h7, rfl, rfl, all _ rfl rfl, all _ rfl rfl, fun _ _ _ => rfl⟩
  have ea : (P a)[s.pc a]? = some (barrier a) := by rw [hpa]; rfl
  have eb : (P b)[s.pc b]? = some (sync pair.d1 pair.d2 pair.d3 0 false true b) := by rw [hpb]; rfl
  have el : left pair.d1 pair.d2 pair.d3 0 b = some a := by decide
  have er : right pair.d1 pair.d2 pair.d3 0 b = none := by decide
  rcases h s hs with hd | ⟨l, s', hst⟩
  · have := hd a
    have e : (P a).length = 27 := rfl
    omega
  · have nx : ∀ r dst src tag pay store, (P r)[s.pc r]? = some (.xchg dst src tag pay store) → r = b ∧ dst = none ∧ src = some a := by
      intro r dst src tag pay store e
      rcases hab r with rfl | rfl
      · rw [ea] at e; simp [barrier] at e
      · rw [eb] at e
        simp only [sync, Option.some.injEq, Instr.xchg.injEq, Bool.false_eq_true, if_false] at e
        exact ⟨rfl, by rw [← e.1, er], by rw [← e.2.1, el]⟩
    cases hst with
    | comp _ r f e =>
      rcases hab r with rfl | rfl
      · rw [ea] at e; simp [barrier] at e
      · rw [eb] at e; simp [sync] at e
    | buffer _ r d src tag pay store e hs => have := (nx _ _ _ _ _ _ e).2.1; simp at this
    | recv _ r o dst tag pay store m l e hr hm => rw [hchan] at hm; simp at hm
    | pass _ x y src dst tag pay pay' store store' hx hy _ _ _ => have := (nx _ _ _ _ _ _ hx).2.1; simp at this
    | finish _ r dst src tag pay store e hs hr =>
      obtain ⟨rfl, -, rfl⟩ := nx _ _ _ _ _ _ e
      rcases hr with h | h
      · simp at h
      · rw [hrcv] at h; simp at h
    | coll _ kind f e => have := e b; rw [eb] at this; simp [sync] at this

/-- The hypotheses of the theorems on the boundary update hold on four ranks with poles: some schedule gets all ranks through, and they then hold what
`Bounds.boundPrim` gives. -/
example : ∃ fill s W', fills (demo .periodic) = some fill ∧
    Reach (boundProg (demo .periodic).d1 (demo .periodic).d2 (demo .periodic).d3 fill fun _ Z => Z) (fun r i j k => demoW .periodic r.1 r.2.1 r.2.2 i j k) s ∧
    Done (boundProg (demo .periodic).d1 (demo .periodic).d2 (demo .periodic).d3 fill fun _ Z => Z) s ∧ boundPrim (demo .periodic) (demoW .periodic) = some W' ∧
    ∀ r, s.loc r = W' r.1 r.2.1 r.2.2 := by
  have hf : (fills (demo .periodic)).isSome = true := by decide +kernel
  obtain ⟨fill, hfill⟩ := Option.isSome_iff_exists.1 hf
  have : Nonempty (Ranks (demo .periodic).d1 (demo .periodic).d2 (demo .periodic).d3) := ⟨(⟨0, by decide⟩, ⟨0, by decide⟩, ⟨0, by decide⟩)⟩
  obtain ⟨N, hN⟩ := (alike_bound (d1 := (demo .periodic).d1) (d2 := (demo .periodic).d2) (d3 := (demo .periodic).d3) fill fun _ Z => Z).matched
  obtain ⟨s, hs, hd⟩ := C130_finishes _ N hN (fun r i j k => demoW .periodic r.1 r.2.1 r.2.2 i j k) _ .start
  obtain ⟨W', h1, h2, -⟩ := C130_bound_prim (demo .periodic) (demoW .periodic) fill hfill (fun _ Z => Z) s hs hd
  exact ⟨fill, s, W', hfill, hs, hd, h1, h2⟩

end Nubhlight.Messages
