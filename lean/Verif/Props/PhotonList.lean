import Verif.Common
import Verif.Model.PhotonList
import Mathlib.Data.Multiset.Basic
import Mathlib.Algebra.BigOperators.Group.Finset.Basic
import Mathlib.Algebra.Order.BigOperators.Group.Multiset
import Mathlib.Data.Fintype.BigOperators
import Mathlib.Data.Fin.VecNotation
import Mathlib.Tactic.FinCases
import Mathlib.Data.Nat.ModEq

set_option autoImplicit false

/-!
# C37 and the traversal part of C38, thread distribution of C39

Specification: `Chain h p l` says that following pointers from `p` visits exactly the addresses `l`; a collection of lists is a family
of such chains without shared addresses, and its contents are a multiset.
-/

set_option linter.unusedSectionVars false

namespace Nubhlight.PhotonList
variable {V : Type*}

/-- Following `next` from `p` visits exactly the addresses `l` and ends in `NULL`. -/
def Chain (h : Heap V) : Option ℕ → List ℕ → Prop
  | none, [] => True
  | some p, a :: l => p = a ∧ ∃ c, h a = some c ∧ Chain h c.next l
  | _, _ => False

theorem Chain.head {h : Heap V} {p : Option ℕ} {l : List ℕ} (hc : Chain h p l) : p = l.head? := by
  cases p <;> cases l <;> simp_all [Chain]

theorem chain_nil {h : Heap V} {p : Option ℕ} : Chain h p [] ↔ p = none := by
  cases p <;> simp [Chain]

theorem chain_cons {h : Heap V} {p : Option ℕ} {a : ℕ} {l : List ℕ} :
    Chain h p (a :: l) ↔ p = some a ∧ ∃ c, h a = some c ∧ Chain h c.next l := by
  cases p <;> simp [Chain]

/-- Changing a cell that is not on the list does not affect it. -/
theorem Chain.frame {h h' : Heap V} {p : Option ℕ} {l : List ℕ} (hc : Chain h p l)
    (he : ∀ a ∈ l, (h' a).map Cell.next = (h a).map Cell.next) : Chain h' p l := by
  induction l generalizing p with
  | nil => rw [chain_nil] at *; exact hc
  | cons a l ih =>
    rw [chain_cons] at *
    obtain ⟨rfl, c, hca, hl⟩ := hc
    have h1 := he a (by simp)
    rw [hca] at h1
    simp only [Option.map_some, Option.map_eq_some_iff] at h1
    obtain ⟨c', hc', hn⟩ := h1
    exact ⟨rfl, c', hc', hn ▸ ih hl fun b hb => he b (by simp [hb])⟩

theorem Chain.update_off {h : Heap V} {p : Option ℕ} {l : List ℕ} (hc : Chain h p l) {a : ℕ} (ha : a ∉ l) (x : Option (Cell V)) :
    Chain (Function.update h a x) p l :=
  hc.frame fun b hb => by rw [Function.update_of_ne (by rintro rfl; exact ha hb)]

theorem Chain.live {h : Heap V} {p : Option ℕ} {l : List ℕ} (hc : Chain h p l) {a : ℕ} (ha : a ∈ l) : ∃ c, h a = some c := by
  induction l generalizing p with
  | nil => simp at ha
  | cons b l ih =>
    rw [chain_cons] at hc
    obtain ⟨-, c, hcb, hl⟩ := hc
    rcases List.mem_cons.1 ha with rfl | ha
    · exact ⟨c, hcb⟩
    · exact ih hl ha

/-- Splitting a chain. -/
theorem Chain.append {h : Heap V} {p : Option ℕ} {k l : List ℕ} (hc : Chain h p (k ++ l)) : ∃ q, Chain h q l := by
  induction k generalizing p with
  | nil => exact ⟨p, hc⟩
  | cons a k ih =>
    rw [List.cons_append, chain_cons] at hc
    obtain ⟨-, c, -, hl⟩ := hc
    exact ih hl

theorem Chain.nextOf {h : Heap V} {p : Option ℕ} {k l : List ℕ} {a : ℕ} {c : Cell V} (hc : Chain h p (k ++ a :: l)) (ha : h a = some c) :
    Chain h c.next l := by
  obtain ⟨q, hq⟩ := hc.append
  rw [chain_cons] at hq
  obtain ⟨-, c', hc', hl⟩ := hq
  rw [ha] at hc'
  cases hc'
  exact hl

/-- Redirecting the last pointer of the front part. -/
theorem Chain.redirect {h : Heap V} {p : Option ℕ} {k l l' : List ℕ} {q : ℕ} {c : Cell V} {n : Option ℕ}
    (hc : Chain h p (k ++ q :: l)) (hq : h q = some c) (hk : (k ++ [q]).Nodup)
    (hn : Chain (Function.update h q (some { c with next := n })) n l') :
    Chain (Function.update h q (some { c with next := n })) p (k ++ q :: l') := by
  induction k generalizing p with
  | nil =>
    rw [List.nil_append, chain_cons] at *
    exact ⟨hc.1, _, Function.update_self .., hn⟩
  | cons a k ih =>
    rw [List.cons_append, chain_cons] at *
    obtain ⟨hp, d, hd, hl⟩ := hc
    have hk' := List.nodup_cons.1 hk
    have hne : a ≠ q := by rintro rfl; exact hk'.1 (by simp)
    exact ⟨hp, d, by rw [Function.update_of_ne hne]; exact hd, ih hl hk'.2⟩

/-! ## One operation -/

/-- `swap_ph` moves the first element of the donor to the front of the recipient. -/
theorem swapPh_spec (h : Heap V) (d r : Option ℕ) (a : ℕ) (l m : List ℕ) (hd : Chain h d (a :: l)) (hr : Chain h r m)
    (hn : (a :: l ++ m).Nodup) :
    ∃ h' d' r', swapPh h d r = some (h', d', r') ∧ Chain h' d' l ∧ Chain h' r' (a :: m) ∧
      (∀ b, (h' b).map Cell.val = (h b).map Cell.val) ∧ ∀ b, b ≠ a → h' b = h b := by
  rw [chain_cons] at hd
  obtain ⟨rfl, c, hc, hl⟩ := hd
  rw [List.cons_append, List.nodup_cons] at hn
  have hal : a ∉ l := fun e => hn.1 (by simp [e])
  have ham : a ∉ m := fun e => hn.1 (by simp [e])
  have e : swapPh h (some a) r = some (Function.update h a (some { c with next := r }), c.next, some a) := by
    unfold swapPh
    cases r <;> simp [hc]
  refine ⟨_, _, _, e, hl.update_off hal _, ?_, ?_, ?_⟩
  · rw [chain_cons]
    exact ⟨rfl, _, Function.update_self .., hr.update_off ham _⟩
  · intro b
    by_cases hb : b = a
    · subst hb; simp [hc]
    · rw [Function.update_of_ne hb]
  · intro b hb
    rw [Function.update_of_ne hb]

/-- `list_remove` at any position takes out exactly that cell and frees it. -/
theorem listRemove_spec (h : Heap V) (head : Option ℕ) (k l : List ℕ) (a : ℕ) (hc : Chain h head (k ++ a :: l))
    (hn : (k ++ a :: l).Nodup) :
    ∃ h' ph' head', listRemove h (some a) head k.getLast? = some (h', ph', head') ∧ Chain h' head' (k ++ l) ∧ ph' = l.head? ∧
      h' a = none ∧ ∀ b, b ≠ a → (h' b).map Cell.val = (h b).map Cell.val ∧ (b ∉ k → h' b = h b) := by
  obtain ⟨c, hca⟩ := hc.live (a := a) (by simp)
  have hl := hc.nextOf hca
  rcases List.eq_nil_or_concat k with rfl | ⟨k, q, rfl⟩
  · rw [List.nil_append] at *
    have hal := (List.nodup_cons.1 hn).1
    refine ⟨Function.update h a none, c.next, c.next, by simp [listRemove, hca], hl.update_off hal _, hl.head,
      Function.update_self .., fun b hb => ?_⟩
    rw [Function.update_of_ne hb]; simp
  · simp only [List.concat_eq_append, List.append_assoc, List.singleton_append] at *
    have hqa : q ≠ a := by
      rintro rfl
      have := (List.nodup_append.1 hn).2.1
      simp at this
    have hnk : a ∉ k ++ [q] := by
      intro hm
      have := List.nodup_append.1 hn
      rcases List.mem_append.1 hm with hm | hm
      · exact this.2.2 _ hm a (by simp) rfl
      · simp at hm; exact hqa hm.symm
    have hal : a ∉ l := by
      have := (List.nodup_append.1 hn).2.1
      simp at this; exact this.2.1
    obtain ⟨cq, hcq⟩ := hc.live (a := q) (by simp)
    have hql : q ∉ l := by
      have := (List.nodup_append.1 hn).2.1
      simp at this; exact this.1.2
    have hkq : (k ++ [q]).Nodup := by
      have h1 := List.nodup_append.1 hn
      rw [List.nodup_append]
      exact ⟨h1.1, by simp, fun x hx y hy => h1.2.2 x hx y (by simp at hy; simp [hy])⟩
    have e : listRemove h (some a) head (k ++ [q]).getLast? =
        some (Function.update (Function.update h q (some { cq with next := c.next })) a none, c.next, head) := by
      simp [listRemove, hca, setNext, hcq, Function.update_of_ne hqa]
    refine ⟨_, _, _, e, ?_, hl.head, Function.update_self .., fun b hb => ?_⟩
    · have : Chain (Function.update h q (some { cq with next := c.next })) head (k ++ q :: l) :=
        Chain.redirect hc hcq hkq (hl.update_off hql _)
      refine this.update_off ?_ _
      intro hm
      rcases List.mem_append.1 hm with hm | hm
      · exact hnk (by simp [hm])
      · rcases List.mem_cons.1 hm with hm | hm
        · exact hqa hm.symm
        · exact hal hm
    · rw [Function.update_of_ne hb]
      constructor
      · by_cases hbq : b = q
        · subst hbq; simp [hcq]
        · rw [Function.update_of_ne hbq]
      · intro hbk
        rw [Function.update_of_ne]
        rintro rfl
        exact hbk (by simp)

/-- `rad_mpi_transport` takes out exactly that cell and puts it at the front of the send list. -/
theorem mpiUnlink_spec (h : Heap V) (head mpi : Option ℕ) (k l m : List ℕ) (a : ℕ) (hc : Chain h head (k ++ a :: l))
    (hm : Chain h mpi m) (hn : (k ++ a :: l ++ m).Nodup) :
    ∃ h' ph' head' mpi', mpiUnlink h (some a) head k.getLast? mpi = some (h', ph', head', mpi') ∧ Chain h' head' (k ++ l) ∧
      Chain h' mpi' (a :: m) ∧ ph' = l.head? ∧ (∀ b, (h' b).map Cell.val = (h b).map Cell.val) ∧
      ∀ b, b ∉ k → b ≠ a → h' b = h b := by
  obtain ⟨c, hca⟩ := hc.live (a := a) (by simp)
  have hl := hc.nextOf hca
  have n1 := List.nodup_append.1 hn
  have n2 := List.nodup_append.1 n1.1
  have hal : a ∉ l := (List.nodup_cons.1 n2.2.1).1
  have ham : a ∉ m := fun e => n1.2.2 a (by simp) a e rfl
  rcases List.eq_nil_or_concat k with rfl | ⟨k, q, rfl⟩
  · rw [List.nil_append] at *
    refine ⟨Function.update h a (some { c with next := mpi }), c.next, c.next, some a, by simp [mpiUnlink, hca],
      hl.update_off hal _, ?_, hl.head, ?_, ?_⟩
    · rw [chain_cons]; exact ⟨rfl, _, Function.update_self .., hm.update_off ham _⟩
    · intro b
      by_cases hb : b = a
      · subst hb; simp [hca]
      · rw [Function.update_of_ne hb]
    · intro b _ hb
      rw [Function.update_of_ne hb]
  · simp only [List.concat_eq_append, List.append_assoc, List.cons_append] at *
    have hak : a ∉ k ++ [q] := fun e => n2.2.2 a e a (by simp) rfl
    have hqa : q ≠ a := by rintro rfl; exact hak (by simp)
    have hql : q ∉ l := fun e => n2.2.2 q (by simp) q (by simp [e]) rfl
    have hqm : q ∉ m := fun e => n1.2.2 q (by simp) q e rfl
    have hkq : (k ++ [q]).Nodup := n2.1
    obtain ⟨cq, hcq⟩ := hc.live (a := q) (by simp)
    have e : mpiUnlink h (some a) head (k ++ [q]).getLast? mpi =
        some (Function.update (Function.update h a (some { c with next := mpi })) q (some { cq with next := c.next }),
          c.next, head, some a) := by
      simp [mpiUnlink, hca, setNext, hcq, Function.update_of_ne hqa]
    refine ⟨_, _, _, _, e, ?_, ?_, hl.head, ?_, ?_⟩
    · rw [Function.update_comm (Ne.symm hqa)]
      have : Chain (Function.update h q (some { cq with next := c.next })) head (k ++ q :: l) :=
        Chain.redirect hc hcq hkq (hl.update_off hql _)
      refine this.update_off ?_ _
      intro hx
      rcases List.mem_append.1 hx with hx | hx
      · exact hak (by simp [hx])
      · rcases List.mem_cons.1 hx with hx | hx
        · exact hqa hx.symm
        · exact hal hx
    · rw [chain_cons]
      refine ⟨rfl, { c with next := mpi }, ?_, ?_⟩
      · rw [Function.update_of_ne (Ne.symm hqa), Function.update_self]
      · exact (hm.update_off ham _).update_off hqm _
    · intro b
      by_cases hb : b = q
      · subst hb; simp [hcq]
      · rw [Function.update_of_ne hb]
        by_cases hb' : b = a
        · subst hb'; simp [hca]
        · rw [Function.update_of_ne hb']
    · intro b hbk hba
      rw [Function.update_of_ne (by rintro rfl; exact hbk (by simp)), Function.update_of_ne hba]

/-! ## C37: any sequence of operations on any number of lists -/

/-- Memory and the heads of `N` lists. -/
structure World (N : ℕ) (V : Type*) where
  heap : Heap V
  heads : Fin N → Option ℕ

/-- The two operations: move the first particle of list `i` to list `j`; remove the particle at position `k` of list `i`. -/
inductive Op (N : ℕ)
  | move (i j : Fin N)
  | remove (i : Fin N) (k : ℕ)

/-- Walking `k` cells along a list, keeping the previous pointer. -/
def walk (h : Heap V) : ℕ → Option ℕ → Option ℕ → Option (Option ℕ × Option ℕ)
  | 0, prev, ph => some (prev, ph)
  | k + 1, _, ph => ph.bind fun p => (h p).bind fun c => walk h k (some p) c.next

/-- One operation through the code. -/
def World.step {N : ℕ} (w : World N V) : Op N → Option (World N V)
  | .move i j =>
      if i = j then none
      else (swapPh w.heap (w.heads i) (w.heads j)).map fun (h, d, r) => ⟨h, Function.update (Function.update w.heads i d) j r⟩
  | .remove i k =>
      (walk w.heap k none (w.heads i)).bind fun (prev, ph) =>
        (listRemove w.heap ph (w.heads i) prev).map fun (h, _, head) => ⟨h, Function.update w.heads i head⟩

/-- A sequence of operations. -/
def World.run {N : ℕ} (w : World N V) : List (Op N) → Option (World N V)
  | [] => some w
  | o :: l => (w.step o).bind fun w' => w'.run l

/-- `N` lists of addresses without sharing. -/
structure World.Holds {N : ℕ} (w : World N V) (L : Fin N → List ℕ) : Prop where
  chain : ∀ i, Chain w.heap (w.heads i) (L i)
  nodup : ∀ i, (L i).Nodup
  disj : ∀ i j, i ≠ j → List.Disjoint (L i) (L j)

/-- The particles at the given addresses. -/
def vals (h : Heap V) (l : List ℕ) : List V := l.filterMap fun a => (h a).map Cell.val

/-- All particles of all lists. -/
def World.contents {N : ℕ} (w : World N V) (L : Fin N → List ℕ) : Multiset V := ∑ i, (vals w.heap (L i) : Multiset V)

theorem vals_congr {h h' : Heap V} {l : List ℕ} (e : ∀ a ∈ l, (h' a).map Cell.val = (h a).map Cell.val) : vals h' l = vals h l := by
  unfold vals
  induction l with
  | nil => rfl
  | cons a l ih =>
    rw [List.filterMap_cons, List.filterMap_cons, e a (by simp), ih fun b hb => e b (by simp [hb])]

theorem sum_two {N : ℕ} {M : Type*} [AddCommMonoid M] (f g : Fin N → M) (i j : Fin N) (hij : i ≠ j) (h2 : f i + f j = g i + g j)
    (hr : ∀ k, k ≠ i → k ≠ j → f k = g k) : ∑ k, f k = ∑ k, g k := by
  rw [← Finset.add_sum_erase _ f (Finset.mem_univ i), ← Finset.add_sum_erase _ g (Finset.mem_univ i)]
  have hj : j ∈ (Finset.univ : Finset (Fin N)).erase i := by simp [Ne.symm hij]
  rw [← Finset.add_sum_erase _ f hj, ← Finset.add_sum_erase _ g hj, ← add_assoc, ← add_assoc, h2]
  congr 1
  apply Finset.sum_congr rfl
  intro k hk
  simp only [Finset.mem_erase, Finset.mem_univ, and_true] at hk
  exact hr k hk.2 hk.1

/-- Moving: the exact effect on the lists. -/
theorem step_move {N : ℕ} (w : World N V) (L : Fin N → List ℕ) (hL : w.Holds L) (i j : Fin N) (hij : i ≠ j) (a : ℕ) (l : List ℕ)
    (hi : L i = a :: l) :
    ∃ w', w.step (.move i j) = some w' ∧ w'.Holds (Function.update (Function.update L i l) j (a :: L j)) ∧
      w'.contents (Function.update (Function.update L i l) j (a :: L j)) = w.contents L := by
  have hci := hL.chain i
  rw [hi] at hci
  have hni := hL.nodup i
  rw [hi] at hni
  have hd := hL.disj i j hij
  rw [hi] at hd
  obtain ⟨h', d', r', e, h1, h2, hv, hf⟩ := swapPh_spec w.heap (w.heads i) (w.heads j) a l (L j) hci (hL.chain j)
    (by
      rw [List.nodup_append]
      exact ⟨hni, hL.nodup j, fun x hx y hy e => hd hx (e ▸ hy)⟩)
  refine ⟨⟨h', Function.update (Function.update w.heads i d') j r'⟩, by simp [World.step, hij, e], ⟨?_, ?_, ?_⟩, ?_⟩
  · intro k
    by_cases hkj : k = j
    · subst hkj; simpa using h2
    · by_cases hki : k = i
      · subst hki; simpa [Function.update_of_ne hkj] using h1
      · simp only [Function.update_of_ne hkj, Function.update_of_ne hki]
        refine (hL.chain k).frame fun b hb => ?_
        rw [hf b]
        rintro rfl
        exact hL.disj i k (Ne.symm hki) (by rw [hi]; simp) hb
  · intro k
    by_cases hkj : k = j
    · subst hkj
      simp only [Function.update_self]
      exact List.nodup_cons.2 ⟨fun ha => hd (by simp) ha, hL.nodup k⟩
    · by_cases hki : k = i
      · subst hki; simpa [Function.update_of_ne hkj] using (List.nodup_cons.1 hni).2
      · simp only [Function.update_of_ne hkj, Function.update_of_ne hki]; exact hL.nodup k
  · -- the pieces stay disjoint
    have old : ∀ k, k ≠ j → ∀ x ∈ Function.update (Function.update L i l) j (a :: L j) k, x ∈ L k ∧ x ≠ a := by
      intro k hkj x hx
      rw [Function.update_of_ne hkj] at hx
      by_cases hki : k = i
      · subst hki
        rw [Function.update_self] at hx
        refine ⟨by rw [hi]; simp [hx], ?_⟩
        rintro rfl
        exact (List.nodup_cons.1 hni).1 hx
      · rw [Function.update_of_ne hki] at hx
        refine ⟨hx, ?_⟩
        rintro rfl
        exact hL.disj i k (Ne.symm hki) (by rw [hi]; simp) hx
    intro k k' hkk x hx hx'
    by_cases hkj : k = j
    · subst hkj
      rw [Function.update_self] at hx
      obtain ⟨o1, o2⟩ := old k' (Ne.symm hkk) x hx'
      rcases List.mem_cons.1 hx with rfl | hx
      · exact o2 rfl
      · exact hL.disj k k' hkk hx o1
    · obtain ⟨o1, o2⟩ := old k hkj x hx
      by_cases hkj' : k' = j
      · subst hkj'
        rw [Function.update_self] at hx'
        rcases List.mem_cons.1 hx' with rfl | hx'
        · exact o2 rfl
        · exact hL.disj k k' hkk o1 hx'
      · exact hL.disj k k' hkk o1 (old k' hkj' x hx').1
  · unfold World.contents
    refine sum_two _ _ i j hij ?_ ?_
    · simp only [Function.update_self, Function.update_of_ne hij]
      rw [vals_congr fun b _ => hv b, vals_congr fun b _ => hv b, hi]
      simp only [vals, List.filterMap_cons]
      obtain ⟨c, hc⟩ := hci.live (a := a) (by simp)
      rw [hc]
      simp only [Option.map_some, ← Multiset.cons_coe, Multiset.add_cons, Multiset.cons_add]
    · intro k hki hkj
      simp only [Function.update_of_ne hkj, Function.update_of_ne hki]
      rw [vals_congr fun b _ => hv b]

theorem walk_spec (h : Heap V) (p prev : Option ℕ) (k l : List ℕ) (hc : Chain h p (k ++ l)) :
    walk h k.length prev p = some (if k = [] then prev else k.getLast?, l.head?) := by
  induction k generalizing p prev with
  | nil => simp [walk, Chain.head hc]
  | cons a k ih =>
    rw [List.cons_append, chain_cons] at hc
    obtain ⟨rfl, c, hca, hl⟩ := hc
    simp only [List.length_cons, walk, Option.bind_some, hca]
    rw [ih c.next (some a) hl]
    cases k <;> simp

/-- Removing: the exact effect on the lists. -/
theorem step_remove {N : ℕ} (w : World N V) (L : Fin N → List ℕ) (hL : w.Holds L) (i : Fin N) (k l : List ℕ) (a : ℕ)
    (hi : L i = k ++ a :: l) :
    ∃ w' v, w.step (.remove i k.length) = some w' ∧ w'.Holds (Function.update L i (k ++ l)) ∧ w'.heap a = none ∧
      v ::ₘ w'.contents (Function.update L i (k ++ l)) = w.contents L := by
  have hci := hL.chain i
  rw [hi] at hci
  have hni := hL.nodup i
  rw [hi] at hni
  obtain ⟨h', ph', head', e, h1, -, h3, h4⟩ := listRemove_spec w.heap (w.heads i) k l a hci hni
  obtain ⟨c, hca⟩ := hci.live (a := a) (by simp)
  have hkl : a ∉ k ++ l := by
    have := List.nodup_append.1 hni
    intro hm
    rcases List.mem_append.1 hm with hm | hm
    · exact this.2.2 a hm a (by simp) rfl
    · exact (List.nodup_cons.1 this.2.1).1 hm
  have hoff : ∀ j, j ≠ i → ∀ b ∈ L j, b ≠ a ∧ b ∉ k := by
    intro j hj b hb
    have := hL.disj i j (Ne.symm hj)
    rw [hi] at this
    exact ⟨by rintro rfl; exact this (by simp) hb, fun hbk => this (by simp [hbk]) hb⟩
  refine ⟨⟨h', Function.update w.heads i head'⟩, c.val, ?_, ⟨?_, ?_, ?_⟩, h3, ?_⟩
  · simp only [World.step]
    rw [walk_spec w.heap (w.heads i) none k (a :: l) hci]
    have : (if k = [] then none else k.getLast?) = k.getLast? := by split_ifs with hk <;> simp [*]
    simp only [Option.bind_some, this, List.head?_cons, e, Option.map_some]
  · intro j
    by_cases hj : j = i
    · subst hj; simpa using h1
    · simp only [Function.update_of_ne hj]
      refine (hL.chain j).frame fun b hb => ?_
      obtain ⟨o1, o2⟩ := hoff j hj b hb
      rw [(h4 b o1).2 o2]
  · intro j
    by_cases hj : j = i
    · subst hj
      simp only [Function.update_self]
      exact hni.sublist (by simp)
    · simp only [Function.update_of_ne hj]; exact hL.nodup j
  · have sub : ∀ j, ∀ x ∈ Function.update L i (k ++ l) j, x ∈ L j := by
      intro j x hx
      by_cases hj : j = i
      · subst hj
        rw [Function.update_self] at hx
        rw [hi]
        rcases List.mem_append.1 hx with hx | hx <;> simp [hx]
      · rwa [Function.update_of_ne hj] at hx
    intro j j' hjj x hx hx'
    exact hL.disj j j' hjj (sub j x hx) (sub j' x hx')
  · unfold World.contents
    rw [← Finset.add_sum_erase _ _ (Finset.mem_univ i), ← Finset.add_sum_erase _ (fun i => (vals w.heap (L i) : Multiset V)) (Finset.mem_univ i),
      ← Multiset.cons_add]
    congr 1
    · simp only [Function.update_self]
      rw [vals_congr (h := w.heap) (h' := h') fun b hb => (h4 b (by rintro rfl; exact hkl hb)).1, hi]
      simp only [vals, List.filterMap_append, List.filterMap_cons, hca, Option.map_some]
      rw [Multiset.cons_coe, Multiset.coe_eq_coe]
      exact List.perm_middle.symm
    · apply Finset.sum_congr rfl
      intro j hj
      simp only [Finset.mem_erase, Finset.mem_univ, and_true] at hj
      simp only [Function.update_of_ne hj]
      rw [vals_congr fun b hb => (h4 b (hoff j hj b hb).1).1]

/-- Number of removals in a sequence. -/
def removals {N : ℕ} : List (Op N) → ℕ
  | [] => 0
  | .move _ _ :: l => removals l
  | .remove _ _ :: l => removals l + 1

/-- **C37 (faults).** An operation fails only when it is called on an empty donor list, with one list as both arguments, or at a
position past the end. -/
theorem C37_faults {N : ℕ} (w : World N V) (L : Fin N → List ℕ) (hL : w.Holds L) (o : Op N) (hf : w.step o = none) :
    (∃ i j, o = .move i j ∧ (i = j ∨ L i = [])) ∨ ∃ i k, o = .remove i k ∧ (L i).length ≤ k := by
  cases o with
  | move i j =>
    left
    refine ⟨i, j, rfl, ?_⟩
    by_contra hc
    push Not at hc
    obtain ⟨a, l, hal⟩ := List.exists_cons_of_ne_nil hc.2
    obtain ⟨w', e, -⟩ := step_move w L hL i j hc.1 a l hal
    rw [hf] at e; cases e
  | remove i k =>
    right
    refine ⟨i, k, rfl, ?_⟩
    by_contra hc
    push Not at hc
    have hsplit : L i = (L i).take k ++ (L i)[k] :: (L i).drop (k + 1) := by
      rw [List.getElem_cons_drop, List.take_append_drop]
    obtain ⟨w', v, e, -⟩ := step_remove w L hL i _ _ _ hsplit
    rw [List.length_take, Nat.min_eq_left hc.le, hf] at e
    cases e

/-- **C37.** Over any sequence of operations on any number of lists, memory stays a family of well-formed lists without sharing, and
the particles of all lists together with the removed ones, one per removal, are exactly the initial ones. -/
theorem C37_conserved {N : ℕ} (w w' : World N V) (L : Fin N → List ℕ) (hL : w.Holds L) (ops : List (Op N)) (hr : w.run ops = some w') :
    ∃ L' gone, w'.Holds L' ∧ Multiset.card gone = removals ops ∧ w'.contents L' + gone = w.contents L := by
  induction ops generalizing w L with
  | nil =>
    simp only [World.run, Option.some.injEq] at hr
    subst hr
    exact ⟨L, 0, hL, rfl, add_zero _⟩
  | cons o l ih =>
    simp only [World.run] at hr
    obtain ⟨w1, h1, h2⟩ := Option.bind_eq_some_iff.1 hr
    cases o with
    | move i j =>
      have hij : i ≠ j := by rintro rfl; simp [World.step] at h1
      have hne : L i ≠ [] := by
        intro hnil
        have hc := hL.chain i
        rw [hnil, chain_nil] at hc
        simp only [World.step, hij, if_false, hc] at h1
        cases hh : w.heads j <;> simp [hh, swapPh] at h1
      obtain ⟨a, t, hat⟩ := List.exists_cons_of_ne_nil hne
      obtain ⟨w1', e, hH, hC⟩ := step_move w L hL i j hij a t hat
      rw [h1] at e
      cases e
      obtain ⟨L', g, x, y, z⟩ := ih w1 _ hH h2
      exact ⟨L', g, x, y, by rw [z, hC]⟩
    | remove i k =>
      have hk : k < (L i).length := by
        by_contra hc
        push Not at hc
        have hw : ∀ (m : List ℕ) (k : ℕ) (p prev : Option ℕ), Chain w.heap p m → m.length ≤ k →
            walk w.heap k prev p = none ∨ ∃ q, walk w.heap k prev p = some (q, none) := by
          intro m
          induction m with
          | nil =>
            intro k p prev hm _
            rw [chain_nil] at hm
            subst hm
            cases k <;> simp [walk]
          | cons a m ihm =>
            intro k p prev hm hlen
            rw [chain_cons] at hm
            obtain ⟨rfl, c, hca, hl⟩ := hm
            cases k with
            | zero => simp at hlen
            | succ k =>
              simp only [walk, Option.bind_some, hca]
              exact ihm k c.next (some a) hl (by simpa using hlen)
        simp only [World.step] at h1
        rcases hw (L i) k (w.heads i) none (hL.chain i) hc with e | ⟨q, e⟩
        · rw [e] at h1; simp at h1
        · rw [e] at h1
          cases q <;> simp [listRemove] at h1
      have hsplit : L i = (L i).take k ++ (L i)[k] :: (L i).drop (k + 1) := by
        rw [List.getElem_cons_drop, List.take_append_drop]
      obtain ⟨w1', v, e, hH, -, hC⟩ := step_remove w L hL i _ _ _ hsplit
      rw [List.length_take, Nat.min_eq_left hk.le, h1] at e
      cases e
      obtain ⟨L', g, x, y, z⟩ := ih w1 _ hH h2
      refine ⟨L', v ::ₘ g, x, by simp [removals, y], ?_⟩
      rw [Multiset.add_cons, z, hC]

/-- Three cells in two lists: moving and removing. -/
def exHeap : Heap ℕ := fun a => if a = 0 then some ⟨10, some 1⟩ else if a = 1 then some ⟨11, none⟩ else if a = 2 then some ⟨12, none⟩ else none

example : (World.mk exHeap ![some 0, some 2] : World 2 ℕ).Holds ![[0, 1], [2]] := by
  refine ⟨?_, ?_, ?_⟩
  · intro i; fin_cases i <;> simp [Chain, exHeap]
  · intro i; fin_cases i <;> simp
  · intro i j h; fin_cases i <;> fin_cases j <;> simp_all

example : ((World.mk exHeap ![some 0, some 2] : World 2 ℕ).run [.move 0 1, .remove 1 1]).isSome = true := by
  decide

/-! ## C38: the traversal of the boundary pass -/

/-- The traversal from the middle of a list: `k` already kept, `r` still to come, `m` the send list, `W` the particles. -/
theorem trav_spec (upd : V → V) (act : V → Act) (isT : V → Bool) (W : ℕ → V) (r : List ℕ) :
    ∀ (k m : List ℕ) (n : ℕ) (s : Trav V), r.length ≤ n → Chain s.heap s.head (k ++ r) → s.prev = k.getLast? → s.ph = r.head? →
      Chain s.heap s.mpi m → (k ++ r ++ m).Nodup → (∀ a ∈ r, (s.heap a).map Cell.val = some (W a)) →
      ∃ s', trav upd act isT n s = some s' ∧
        Chain s'.heap s'.head (k ++ r.filter fun a => act (W a) = .keep) ∧
        Chain s'.heap s'.mpi ((r.filter fun a => act (W a) = .send).reverse ++ m) ∧
        s'.lost = s.lost + r.countP (fun a => act (W a) = .lose) ∧
        s'.tot = s.tot - r.countP (fun a => act (W a) = .lose) ∧
        s'.tracer = s.tracer - r.countP (fun a => act (W a) = .lose ∧ isT (W a)) ∧
        s'.nsend = s.nsend + r.countP (fun a => act (W a) = .send) ∧
        (∀ a ∈ r, act (W a) ≠ .lose → (s'.heap a).map Cell.val = some (upd (W a))) ∧
        (∀ a ∈ r, act (W a) = .lose → s'.heap a = none) ∧
        (∀ a, a ∉ r → (s'.heap a).map Cell.val = (s.heap a).map Cell.val) ∧
        ∀ a, a ∉ k ++ r → s'.heap a = s.heap a := by
  induction r with
  | nil =>
    intro k m n s _ hc hp hph hm hn hW
    simp only [List.head?_nil] at hph
    refine ⟨s, ?_, by simpa using hc, by simpa using hm, by simp, by simp, by simp, by simp, by simp, by simp, by simp, by simp⟩
    cases n <;> simp [trav, hph]
  | cons a r ih =>
    intro k m n s hlen hc hp hph hm hn hW
    simp only [List.head?_cons] at hph
    obtain ⟨n, rfl⟩ : ∃ n', n = n' + 1 := ⟨n - 1, by simp at hlen; omega⟩
    simp only [List.length_cons, Nat.add_le_add_iff_right] at hlen
    have hva := hW a (by simp)
    obtain ⟨c, hca, hcv⟩ := Option.map_eq_some_iff.1 hva
    have hkr : (k ++ a :: r).Nodup := (List.nodup_append.1 hn).1
    have har : a ∉ r := (List.nodup_cons.1 (List.nodup_append.1 hkr).2.1).1
    have hak : a ∉ k := fun e => (List.nodup_append.1 hkr).2.2 a e a (by simp) rfl
    have ham : a ∉ m := fun e => (List.nodup_append.1 hn).2.2 a (by simp) a e rfl
    generalize hh : Function.update s.heap a (some { c with val := upd c.val }) = h1
    have h1a : h1 a = some { c with val := upd c.val } := by rw [← hh]; simp
    have h1o : ∀ b, b ≠ a → h1 b = s.heap b := fun b hb => by rw [← hh, Function.update_of_ne hb]
    have h1n : ∀ b, (h1 b).map Cell.next = (s.heap b).map Cell.next := by
      intro b
      by_cases hb : b = a
      · subst hb; rw [h1a, hca]; rfl
      · rw [h1o b hb]
    have hc1 : Chain h1 s.head (k ++ a :: r) := hc.frame fun b _ => h1n b
    have hm1 : Chain h1 s.mpi m := hm.frame fun b _ => h1n b
    have hne : ∀ b ∈ r, b ≠ a := fun b hb e => har (e ▸ hb)
    rcases hact : act (W a) with _ | _ | _
    · -- keep
      obtain ⟨s', e, q1, q2, q3, q4, q5, q6, q7, q8, q9, q10⟩ :=
        ih (k ++ [a]) m n { s with heap := h1, prev := some a, ph := c.next } hlen (by simpa using hc1) (by simp)
          (by
            have := hc.nextOf hca
            exact this.head) hm1 (by simpa using hn) (fun b hb => by simp only; rw [h1o b (hne b hb)]; exact hW b (by simp [hb]))
      refine ⟨s', ?_, ?_, ?_, ?_, ?_, ?_, ?_, ?_, ?_, ?_, ?_⟩
      · simp only [trav, hph, travStep, Option.bind_some, hca, hcv, hact]
        rw [← e]; simp [← hh, hcv]
      · simpa [hact] using q1
      · simpa [hact] using q2
      · simpa [hact] using q3
      · simpa [hact] using q4
      · simpa [hact] using q5
      · simpa [hact] using q6
      · intro b hb hb2
        rcases List.mem_cons.1 hb with rfl | hb
        · rw [q9 b har]; simp [h1a, hcv]
        · exact q7 b hb hb2
      · intro b hb hb2
        rcases List.mem_cons.1 hb with rfl | hb
        · rw [hact] at hb2; cases hb2
        · exact q8 b hb hb2
      · intro b hb
        simp only [List.mem_cons, not_or] at hb
        rw [q9 b hb.2]; simp only; rw [h1o b hb.1]
      · intro b hb
        rw [q10 b (by simpa using hb)]
        simp only [List.mem_append, List.mem_cons, not_or] at hb
        exact h1o b hb.2.1
    · -- send
      obtain ⟨h2, ph2, head2, mpi2, e2, g1, g2, g3, g4, g5⟩ := mpiUnlink_spec h1 s.head s.mpi k r m a hc1 hm1 hn
      have hvr : ∀ b ∈ r, (h2 b).map Cell.val = some (W b) := fun b hb => by
        rw [g4, h1o b (hne b hb)]; exact hW b (by simp [hb])
      obtain ⟨s', e, q1, q2, q3, q4, q5, q6, q7, q8, q9, q10⟩ :=
        ih k (a :: m) n { s with heap := h2, ph := ph2, head := head2, mpi := mpi2, nsend := s.nsend + 1 } hlen g1 hp g3 g2
          (by
            have : (k ++ r ++ a :: m).Perm (k ++ a :: r ++ m) := by
              simp only [List.append_assoc, List.cons_append]
              exact List.Perm.append_left k List.perm_middle
            exact this.nodup_iff.2 hn) hvr
      refine ⟨s', ?_, ?_, ?_, ?_, ?_, ?_, ?_, ?_, ?_, ?_, ?_⟩
      · simp only [trav, hph, travStep, Option.bind_some, hca, hcv, hact]
        rw [hcv] at hh
        rw [hh, hp, e2]
        simpa [hp] using e
      · simpa [hact] using q1
      · simpa [hact] using q2
      · simpa [hact] using q3
      · simpa [hact] using q4
      · simpa [hact] using q5
      · simp only at q6
        rw [q6]
        simp [hact, List.countP_cons]
        omega
      · intro b hb hb2
        rcases List.mem_cons.1 hb with rfl | hb
        · rw [q9 b har]; simp only; rw [g4]; simp [h1a, hcv]
        · exact q7 b hb hb2
      · intro b hb hb2
        rcases List.mem_cons.1 hb with rfl | hb
        · rw [hact] at hb2; cases hb2
        · exact q8 b hb hb2
      · intro b hb
        simp only [List.mem_cons, not_or] at hb
        rw [q9 b hb.2]; simp only; rw [g4, h1o b hb.1]
      · intro b hb
        simp only [List.mem_append, List.mem_cons, not_or] at hb
        rw [q10 b (by simp [hb])]; simp only
        rw [g5 b hb.1 hb.2.1, h1o b hb.2.1]
    · -- lose
      obtain ⟨h2, ph2, head2, e2, g1, g2, g3, g4⟩ := listRemove_spec h1 s.head k r a hc1 hkr
      have hvr : ∀ b ∈ r, (h2 b).map Cell.val = some (W b) := fun b hb => by
        rw [(g4 b (hne b hb)).1, h1o b (hne b hb)]; exact hW b (by simp [hb])
      have hkm : ∀ b ∈ m, b ∉ k := fun b hb e => (List.nodup_append.1 hn).2.2 b (by simp [e]) b hb rfl
      obtain ⟨s', e, q1, q2, q3, q4, q5, q6, q7, q8, q9, q10⟩ :=
        ih k m n { s with heap := h2, ph := ph2, head := head2, lost := s.lost + 1, tot := s.tot - 1,
                          tracer := if isT (W a) then s.tracer - 1 else s.tracer } hlen g1 hp g2
          (hm1.frame fun b hb => by
            simp only
            rw [(g4 b (by rintro rfl; exact ham hb)).2 (hkm b hb)])
          (hn.sublist (by simp)) hvr
      refine ⟨s', ?_, ?_, ?_, ?_, ?_, ?_, ?_, ?_, ?_, ?_, ?_⟩
      · simp only [trav, hph, travStep, Option.bind_some, hca, hcv, hact]
        rw [hcv] at hh
        rw [hh, hp, e2]
        simpa [hp] using e
      · simpa [hact] using q1
      · simpa [hact] using q2
      · simp only at q3
        rw [q3]
        simp [hact, List.countP_cons]
        omega
      · simp only at q4
        rw [q4]
        simp [hact, List.countP_cons]
        omega
      · simp only at q5
        rw [q5]
        by_cases hT : isT (W a) = true
        · simp [hact, List.countP_cons, hT]; omega
        · simp [hact, List.countP_cons, hT]
      · simpa [hact] using q6
      · intro b hb hb2
        rcases List.mem_cons.1 hb with rfl | hb
        · exact absurd hact hb2
        · exact q7 b hb hb2
      · intro b hb hb2
        rcases List.mem_cons.1 hb with rfl | hb
        · have : s'.heap b = none := by
            have := q9 b har
            simp only [g3, Option.map_none] at this
            exact Option.map_eq_none_iff.1 this
          exact this
        · exact q8 b hb hb2
      · intro b hb
        simp only [List.mem_cons, not_or] at hb
        rw [q9 b hb.2]; simp only; rw [(g4 b hb.1).1, h1o b hb.1]
      · intro b hb
        simp only [List.mem_append, List.mem_cons, not_or] at hb
        rw [q10 b (by simp [hb])]; simp only
        rw [(g4 b hb.2.1).2 hb.1, h1o b hb.2.1]

/-- **C38 (sorting).** The boundary pass over a list of particles never faults and terminates; afterwards the list holds exactly the
kept particles in their order, the send list exactly the particles to be sent (on top of what was there), all with the periodic
shift applied, the lost particles are freed, and the counters have changed by exactly the numbers lost and sent. -/
theorem C38_sorting (upd : V → V) (act : V → Act) (isT : V → Bool) (h : Heap V) (list mpi : Option ℕ) (l m : List ℕ) (W : ℕ → V)
    (hl : Chain h list l) (hm : Chain h mpi m) (hn : (l ++ m).Nodup) (hW : ∀ a ∈ l, (h a).map Cell.val = some (W a)) (n : ℕ)
    (hfuel : l.length ≤ n) :
    ∃ s', trav upd act isT n (travInit h list mpi) = some s' ∧
      Chain s'.heap s'.head (l.filter fun a => act (W a) = .keep) ∧
      Chain s'.heap s'.mpi ((l.filter fun a => act (W a) = .send).reverse ++ m) ∧
      s'.lost = l.countP (fun a => act (W a) = .lose) ∧ s'.tot = -(l.countP (fun a => act (W a) = .lose) : ℤ) ∧
      s'.tracer = -(l.countP (fun a => act (W a) = .lose ∧ isT (W a)) : ℤ) ∧ s'.nsend = l.countP (fun a => act (W a) = .send) ∧
      (∀ a ∈ l, act (W a) ≠ .lose → (s'.heap a).map Cell.val = some (upd (W a))) ∧
      (∀ a ∈ l, act (W a) = .lose → s'.heap a = none) ∧ (∀ a, a ∉ l → s'.heap a = h a) := by
  obtain ⟨s', e, q1, q2, q3, q4, q5, q6, q7, q8, -, q10⟩ :=
    trav_spec upd act isT W l [] m n (travInit h list mpi) hfuel (by simpa [travInit] using hl) (by simp [travInit])
      (by simpa [travInit] using hl.head) (by simpa [travInit] using hm) (by simpa using hn) (by simpa [travInit] using hW)
  refine ⟨s', e, by simpa using q1, q2, by simpa [travInit] using q3, by simpa [travInit] using q4, by simpa [travInit] using q5,
    by simpa [travInit] using q6, q7, q8, by simpa [travInit] using q10⟩

/-- **C38 (exactly one destination).** Kept, sent and lost particles partition the list. -/
theorem C38_partition (act : V → Act) (W : ℕ → V) (l : List ℕ) :
    ((l.filter fun a => act (W a) = .keep) ++ (l.filter fun a => act (W a) = .send) ++ (l.filter fun a => act (W a) = .lose)).Perm l := by
  induction l with
  | nil => simp
  | cons a l ih =>
    rcases hact : act (W a) with _ | _ | _
    · simpa [hact] using ih
    · simp only [hact, List.filter_cons, decide_true, decide_false, if_true, reduceCtorEq, if_false, Bool.false_eq_true]
      refine List.Perm.trans ?_ (ih.cons a)
      simp only [List.append_assoc, List.cons_append]
      exact List.perm_middle
    · simp only [hact, List.filter_cons, decide_true, decide_false, if_true, reduceCtorEq, if_false, Bool.false_eq_true]
      exact List.perm_middle.trans (ih.cons a)

/-- **C38 (merging).** Merging a thread's send list into the rank's moves every particle. -/
theorem C38_merge (n : ℕ) (h : Heap V) (d r : Option ℕ) (l m : List ℕ) (hd : Chain h d l) (hr : Chain h r m) (hn : (l ++ m).Nodup)
    (hf : l.length ≤ n) :
    ∃ h' r', drain n h d r = some (h', r') ∧ Chain h' r' (l.reverse ++ m) ∧ (∀ b, (h' b).map Cell.val = (h b).map Cell.val) ∧
      ∀ b, b ∉ l → h' b = h b := by
  induction l generalizing n h d r m with
  | nil =>
    rw [chain_nil] at hd
    refine ⟨h, r, ?_, by simpa using hr, fun _ => rfl, fun _ _ => rfl⟩
    cases n <;> simp [drain, hd]
  | cons a l ih =>
    obtain ⟨n, rfl⟩ : ∃ n', n = n' + 1 := ⟨n - 1, by simp at hf; omega⟩
    obtain ⟨h1, d1, r1, e, c1, c2, v1, f1⟩ := swapPh_spec h d r a l m hd hr hn
    obtain ⟨h', r', e', c', v', f'⟩ := ih n h1 d1 r1 (a :: m) c1 c2
      (by
        have : (l ++ a :: m).Perm (a :: l ++ m) := List.perm_middle
        exact this.nodup_iff.2 hn) (by simpa using hf)
    refine ⟨h', r', ?_, by simpa using c', fun b => by rw [v', v1], fun b hb => ?_⟩
    · have : d ≠ none := by rw [(chain_cons.1 hd).1]; simp
      simp [drain, this, e, e']
    · simp only [List.mem_cons, not_or] at hb
      rw [f' b hb.2, f1 b hb.1]

/-! ## C39: distribution over threads -/

theorem give_spec {P : Type*} (k : ℕ) (recv l : List P) :
    give k recv l = (recv.drop k, (recv.take k).reverse ++ l) := by
  induction k generalizing recv l with
  | zero => simp [give]
  | succ k ih =>
    cases recv with
    | nil => simp [give]
    | cons p recv => simp [give, ih]

theorem perThread_enough (n T : ℕ) (hT : 0 < T) : n ≤ perThread n T * T := by
  unfold perThread
  split_ifs with h
  · have := Nat.div_add_mod n T
    have := Nat.mod_lt n hT
    nlinarith [Nat.mul_comm (n / T) T]
  · omega

theorem mod_inj (T start a b : ℕ) (ha : a < T) (hb : b < T) (h : (start + a) % T = (start + b) % T) : a = b := by
  have h2 : a % T = b % T := Nat.ModEq.add_left_cancel' start h
  rwa [Nat.mod_eq_of_lt ha, Nat.mod_eq_of_lt hb] at h2

theorem distribute_spec {P : Type*} (T start k : ℕ) (recv : List P) (lists : ℕ → List P) (n : ℕ) (hn : n ≤ T) :
    (distribute T start k n recv lists).1 = recv.drop (n * k) ∧
    (∀ j, j < n → (distribute T start k n recv lists).2 ((start + j) % T) =
      ((recv.drop (j * k)).take k).reverse ++ lists ((start + j) % T)) ∧
    ∀ i, (∀ j, j < n → (start + j) % T ≠ i) → (distribute T start k n recv lists).2 i = lists i := by
  induction n with
  | zero => simp [distribute]
  | succ n ih =>
    obtain ⟨h1, h2, h3⟩ := ih (by omega)
    have hfresh : ∀ j, j < n → (start + j) % T ≠ (start + n) % T := by
      intro j hj e
      have := mod_inj T start j n (by omega) (by omega) e
      omega
    simp only [distribute, give_spec, h1]
    refine ⟨by rw [List.drop_drop]; congr 1; ring, ?_, ?_⟩
    · intro j hj
      by_cases hjn : j = n
      · subst hjn
        rw [Function.update_self, h3 _ hfresh]
      · rw [Function.update_of_ne (hfresh j (by omega)), h2 j (by omega)]
    · intro i hi
      rw [Function.update_of_ne (Ne.symm (hi n (by omega))), h3 i fun j hj => hi j (by omega)]

/-- **C39 (threads).** Every received particle ends up in exactly one thread's list, none is left over: thread `start + j` (modulo the
number of threads) gets exactly the `j`-th chunk, on top of what it had. -/
theorem C39_threads {P : Type*} (T start : ℕ) (hT : 0 < T) (recv : List P) (lists : ℕ → List P) :
    (spread T start recv lists).1 = [] ∧
    (∀ j, j < T → (spread T start recv lists).2 ((start + j) % T) =
      ((recv.drop (j * perThread recv.length T)).take (perThread recv.length T)).reverse ++ lists ((start + j) % T)) ∧
    ∀ i, T ≤ i → (spread T start recv lists).2 i = lists i := by
  obtain ⟨h1, h2, h3⟩ := distribute_spec T start (perThread recv.length T) recv lists T le_rfl
  refine ⟨?_, h2, fun i hi => h3 i fun j _ e => ?_⟩
  · unfold spread
    rw [h1, List.drop_eq_nil_iff]
    rw [Nat.mul_comm]
    exact perThread_enough _ _ hT
  · have := Nat.mod_lt (start + j) hT
    omega

/-- **C39 (balance).** Each thread receives at most `ceil(n / T)` particles, so the numbers received differ by at most that. -/
theorem C39_balance {P : Type*} (T start : ℕ) (hT : 0 < T) (recv : List P) (lists : ℕ → List P) (j : ℕ) (hj : j < T) :
    ((spread T start recv lists).2 ((start + j) % T)).length ≤ perThread recv.length T + (lists ((start + j) % T)).length ∧
      perThread recv.length T * T < recv.length + T := by
  obtain ⟨-, h2, -⟩ := C39_threads T start hT recv lists
  constructor
  · rw [h2 j hj]
    simp only [List.length_append, List.length_reverse, List.length_take]
    omega
  · unfold perThread
    have := Nat.div_mul_le_self recv.length T
    split_ifs with h
    · rw [Nat.add_mul]; omega
    · omega

/-- **C39 (every chunk once).** Put together in order the chunks are the received list. -/
theorem C39_chunks {P : Type*} (k T : ℕ) (recv : List P) (h : recv.length ≤ k * T) :
    ((List.range T).flatMap fun j => (recv.drop (j * k)).take k) = recv := by
  have : ∀ n, ((List.range n).flatMap fun j => (recv.drop (j * k)).take k) = recv.take (n * k) := by
    intro n
    induction n with
    | zero => simp
    | succ n ih =>
      rw [List.range_succ, List.flatMap_append, ih]
      simp only [List.flatMap_singleton]
      rw [Nat.succ_mul, List.take_add]
  rw [this, List.take_of_length_le]
  rw [Nat.mul_comm]; exact h

example : (spread 2 1 [1, 2, 3, 4, 5] (fun _ => [])).2 1 = [3, 2, 1] ∧ (spread 2 1 [1, 2, 3, 4, 5] (fun _ => [])).2 0 = [5, 4] := by
  decide

end Nubhlight.PhotonList
