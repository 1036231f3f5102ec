import Verif.Model.Threads
import Verif.Common
import Mathlib.Algebra.BigOperators.Group.Finset.Basic
import Mathlib.Algebra.BigOperators.Group.Finset.Piecewise
import Mathlib.Tactic.Abel

set_option autoImplicit false
set_option linter.unusedSectionVars false

/-! # C124, C125: results do not depend on the schedule of the threads -/

namespace Nubhlight.Threads

variable {I A V : Type*} [DecidableEq I] [DecidableEq A] [AddCommGroup V]

/-- The accesses load from or store to `a` (specification). -/
def RW (ops : List (Op A V)) (a : A) : Prop := Op.read a ∈ ops ∨ ∃ f, Op.write a f ∈ ops

/-- The accesses store to `a` (specification). -/
def Wr (ops : List (Op A V)) (a : A) : Prop := ∃ f, Op.write a f ∈ ops

/-- The accesses add to `a` (specification). -/
def Ad (ops : List (Op A V)) (a : A) : Prop := ∃ f, Op.add a f ∈ ops

/-- No two iterations meet at an address, unless both only load or both only add (specification). -/
def RaceFree (prog : I → List (Op A V)) : Prop :=
  ∀ i j a, i ≠ j → (Wr (prog i) a → ¬ RW (prog j) a ∧ ¬ Ad (prog j) a) ∧ (Ad (prog i) a → ¬ RW (prog j) a)

/-- An iteration run alone. -/
def solo (ops : List (Op A V)) (s : (A → V) × (A → V)) : (A → V) × (A → V) := ops.foldl (fun s op => act op s) s

theorem solo_append (l₁ l₂ : List (Op A V)) (s : (A → V) × (A → V)) : solo (l₁ ++ l₂) s = solo l₂ (solo l₁ s) := by
  simp [solo, List.foldl_append]

theorem solo_keeps (ops : List (Op A V)) (s : (A → V) × (A → V)) (a : A) (hw : ¬ Wr ops a) (ha : ¬ Ad ops a) :
    (solo ops s).2 a = s.2 a := by
  induction ops generalizing s with
  | nil => rfl
  | cons op ops ih =>
    have e : solo (op :: ops) s = solo ops (act op s) := rfl
    rw [e, ih (act op s) (fun ⟨f, h⟩ => hw ⟨f, List.mem_cons_of_mem _ h⟩) (fun ⟨f, h⟩ => ha ⟨f, List.mem_cons_of_mem _ h⟩)]
    cases op with
    | read b => rfl
    | write b f =>
      have hb : a ≠ b := fun h => hw ⟨f, by rw [h]; exact List.mem_cons_self⟩
      simp only [act]
      split
      · simp [hb]
      · rfl
    | add b f =>
      have hb : a ≠ b := fun h => ha ⟨f, by rw [h]; exact List.mem_cons_self⟩
      simp [act, hb]

theorem solo_cond (ops : List (Op A V)) (m : A → V) (d r : List (Op A V)) (h : ops = d ++ r) (a : A)
    (hw : ¬ Wr ops a) (ha : ¬ Ad ops a) : (solo d (0, m)).2 a = m a := by
  subst h
  exact solo_keeps d _ a (fun ⟨f, h⟩ => hw ⟨f, List.mem_append_left _ h⟩) (fun ⟨f, h⟩ => ha ⟨f, List.mem_append_left _ h⟩)

/-- What a schedule has done so far, iteration by iteration. -/
structure Inv (prog : I → List (Op A V)) (s : Finset I) (m : A → V) (done : I → List (Op A V)) (c : Conf I A V) : Prop where
  split : ∀ i, prog i = done i ++ c.rest i
  reg : ∀ i, c.reg i = (solo (done i) (0, m)).1
  mem : ∀ a, c.mem a = m a + ∑ i ∈ s, ((solo (done i) (0, m)).2 a - m a)

theorem inv_step (prog : I → List (Op A V)) (s : Finset I) (m : A → V) (hs : ∀ i, i ∉ s → prog i = []) (hr : RaceFree prog)
    (done : I → List (Op A V)) (c c' : Conf I A V) (h : Inv prog s m done c) (j : I) (hj : step j c = some c') :
    ∃ done', Inv prog s m done' c' := by
  unfold step at hj
  cases hrest : c.rest j with
  | nil => simp [hrest] at hj
  | cons op ops =>
    simp only [hrest, Option.some.injEq] at hj
    subst hj
    have hp : prog j = done j ++ op :: ops := by rw [h.split j, hrest]
    have hjs : j ∈ s := by
      by_contra hn
      have := hs j hn
      rw [hp] at this
      simp at this
    have hmem : op ∈ prog j := by rw [hp]; simp
    -- the value the iteration finds at an address it loads or stores
    have own : ∀ a, RW (prog j) a → (∀ i ∈ s, i ≠ j → (solo (done i) (0, m)).2 a = m a) := by
      intro a ha i _ hij
      refine solo_cond (prog i) m (done i) (c.rest i) (h.split i) a (fun hw => ?_) (fun hd => ?_)
      · exact ((hr i j a hij).1 hw).1 ha
      · exact (hr i j a hij).2 hd ha
    have found : ∀ a, RW (prog j) a → c.mem a = (solo (done j) (0, m)).2 a := by
      intro a ha
      rw [h.mem a, Finset.sum_eq_single_of_mem j hjs (fun i hi hij => by rw [own a ha i hi hij, sub_self])]
      abel
    refine ⟨Function.update done j (done j ++ [op]), ?_, ?_, ?_⟩
    · intro i
      by_cases hij : i = j
      · subst hij; simp [hp]
      · simp [hij, h.split i]
    · intro i
      by_cases hij : i = j
      · subst hij
        simp only [Function.update_self, solo_append]
        rw [h.reg i]
        cases op with
        | read a =>
          simp only [solo, List.foldl_cons, List.foldl_nil, act]
          rw [found a (Or.inl hmem)]
          rfl
        | write a f =>
          simp only [solo, List.foldl_cons, List.foldl_nil, act]
          split <;> rfl
        | add a f => rfl
      · simp [hij, h.reg i]
    · intro b
      have hsum : ∀ (x : V), (solo (done j ++ [op]) (0, m)).2 b = (solo (done j) (0, m)).2 b + x →
          (act op (c.reg j, c.mem)).2 b = c.mem b + x →
          (act op (c.reg j, c.mem)).2 b = m b + ∑ i ∈ s, ((solo (Function.update done j (done j ++ [op]) i) (0, m)).2 b - m b) := by
        intro x h1 h2
        have e : ∀ i ∈ s, (solo (Function.update done j (done j ++ [op]) i) (0, m)).2 b - m b =
            ((solo (done i) (0, m)).2 b - m b) + (if i = j then x else 0) := by
          intro i _
          by_cases hij : i = j
          · subst hij; simp only [Function.update_self, h1, if_true]; abel
          · simp [hij]
        rw [h2, h.mem b, Finset.sum_congr rfl e, Finset.sum_add_distrib, Finset.sum_ite_eq' s j, if_pos hjs]
        abel
      rw [solo_append] at hsum
      have hreg := h.reg j
      show (act op (c.reg j, c.mem)).2 b = _
      cases op with
      | read a => exact hsum 0 (by simp [solo, act]) (by simp [act])
      | write a f =>
        have hf := found a (Or.inr ⟨f, hmem⟩)
        cases hv : f (c.reg j) with
        | none =>
          refine hsum 0 ?_ ?_
          · have : f (solo (done j) (0, m)).1 = none := by rw [← hreg]; exact hv
            simp only [solo, List.foldl_cons, List.foldl_nil, act] at this ⊢
            rw [this]; simp
          · simp [act, hv]
        | some v =>
          have hv' : f (solo (done j) (0, m)).1 = some v := by rw [← hreg]; exact hv
          by_cases hb : b = a
          · subst hb
            refine hsum (v - c.mem b) ?_ ?_
            · simp only [solo, List.foldl_cons, List.foldl_nil, act] at hv' hf ⊢
              rw [hv', hf]; simp
            · simp [act, hv]
          · refine hsum 0 ?_ ?_
            · simp only [solo, List.foldl_cons, List.foldl_nil, act] at hv' ⊢
              rw [hv']; simp [hb]
            · simp [act, hv, hb]
      | add a f =>
        by_cases hb : b = a
        · subst hb
          refine hsum (f (c.reg j)) ?_ ?_
          · rw [hreg]; simp [solo, act]
          · simp [act]
        · refine hsum 0 ?_ ?_
          · simp [solo, act, hb]
          · simp [act, hb]

theorem inv_runs (prog : I → List (Op A V)) (s : Finset I) (m : A → V) (hs : ∀ i, i ∉ s → prog i = []) (hr : RaceFree prog)
    (sched : List I) (c c' : Conf I A V) (done : I → List (Op A V)) (h : Inv prog s m done c) (hc : runs sched c = some c') :
    ∃ done', Inv prog s m done' c' := by
  induction sched generalizing c done with
  | nil => simp only [runs, Option.some.injEq] at hc; subst hc; exact ⟨done, h⟩
  | cons i is ih =>
    simp only [runs, Option.bind_eq_some_iff] at hc
    obtain ⟨c₁, h1, h2⟩ := hc
    obtain ⟨d₁, hd⟩ := inv_step prog s m hs hr done c c₁ h i h1
    exact ih c₁ d₁ hd h2

/-- Every complete schedule of a race-free loop leaves the sum of what the iterations change when run alone. -/
theorem ends_sum (prog : I → List (Op A V)) (s : Finset I) (m m' : A → V) (hs : ∀ i, i ∉ s → prog i = []) (hr : RaceFree prog)
    (sched : List I) (h : Ends prog m sched m') (a : A) :
    m' a = m a + ∑ i ∈ s, ((solo (prog i) (0, m)).2 a - m a) := by
  obtain ⟨c, hc, hfin, rfl⟩ := h
  have h0 : Inv prog s m (fun _ => []) (start prog m) := by
    refine ⟨fun i => by simp [start], fun i => ?_, fun a => by simp [start, solo]⟩
    funext a
    simp [start, solo]
  obtain ⟨d, hd⟩ := inv_runs prog s m hs hr sched _ _ _ h0 hc
  have e : d = prog := by
    funext i
    have := hd.split i
    rw [hfin i, List.append_nil] at this
    exact this.symm
  rw [hd.mem a, e]

/-- **C124, the rule.** In a race-free loop all complete schedules leave the same memory. -/
theorem C124_deterministic (prog : I → List (Op A V)) (s : Finset I) (m m₁ m₂ : A → V) (hs : ∀ i, i ∉ s → prog i = [])
    (hr : RaceFree prog) (sched₁ sched₂ : List I) (h₁ : Ends prog m sched₁ m₁) (h₂ : Ends prog m sched₂ m₂) : m₁ = m₂ := by
  funext a
  rw [ends_sum prog s m m₁ hs hr sched₁ h₁, ends_sum prog s m m₂ hs hr sched₂ h₂]

/-! ## Loops that load and then store -/

/-- What the registers hold after the loads of a body. -/
def snap (R : List A) (m : A → V) : A → V := fun a => if a ∈ R then m a else 0

theorem solo_reads (R : List A) (r m : A → V) :
    solo (R.map Op.read) (r, m) = ((fun a => if a ∈ R then m a else r a), m) := by
  induction R generalizing r with
  | nil => simp [solo]
  | cons b R ih =>
    have e : solo ((b :: R).map Op.read) (r, m) = solo (R.map Op.read) (Function.update r b (m b), m) := rfl
    rw [e, ih]
    congr 1
    funext a
    by_cases h : a ∈ R
    · simp [h]
    · by_cases hb : a = b
      · subst hb; simp [h]
      · simp [h, hb]

theorem solo_writes (W : List (A × ((A → V) → Option V))) (r m : A → V) (hn : (W.map Prod.fst).Nodup) :
    (∀ p ∈ W, (solo (W.map fun p => Op.write p.1 p.2) (r, m)).2 p.1 = (p.2 r).getD (m p.1)) ∧
    ∀ a, a ∉ W.map Prod.fst → (solo (W.map fun p => Op.write p.1 p.2) (r, m)).2 a = m a := by
  have keep : ∀ (W : List (A × ((A → V) → Option V))) (m : A → V) a, a ∉ W.map Prod.fst →
      (solo (W.map fun p => Op.write p.1 p.2) (r, m)).2 a = m a := by
    intro W m a ha
    refine solo_keeps _ _ a ?_ ?_
    · rintro ⟨f, hf⟩
      obtain ⟨p, hp, he⟩ := List.mem_map.1 hf
      injection he with h1 h2
      exact ha (List.mem_map.2 ⟨p, hp, h1⟩)
    · rintro ⟨f, hf⟩
      obtain ⟨p, hp, he⟩ := List.mem_map.1 hf
      injection he
  refine ⟨?_, fun a => keep W m a⟩
  induction W generalizing m with
  | nil => simp
  | cons q W ih =>
    rw [List.map_cons, List.nodup_cons] at hn
    have e : solo ((q :: W).map fun p => Op.write p.1 p.2) (r, m) =
        solo (W.map fun p => Op.write p.1 p.2) (r, match q.2 r with | some v => Function.update m q.1 v | none => m) := by
      simp only [solo, List.map_cons, List.foldl_cons, act]
      cases q.2 r <;> rfl
    intro p hp
    rw [e]
    rcases List.mem_cons.1 hp with rfl | hp
    · rw [keep W _ _ hn.1]
      cases p.2 r <;> simp
    · rw [ih _ hn.2 p hp]
      have hne : p.1 ≠ q.1 := fun h => hn.1 (by rw [← h]; exact List.mem_map.2 ⟨p, hp, rfl⟩)
      cases q.2 r <;> simp [hne]

/-- Addresses a body stores to. -/
def Body.keys (b : Body A V) : List A := b.W.map Prod.fst

theorem ops_rw (b : Body A V) (a : A) : RW b.ops a ↔ a ∈ b.R ∨ a ∈ b.keys := by
  unfold RW Body.ops Body.keys
  constructor
  · rintro (h | ⟨f, h⟩)
    · rcases List.mem_append.1 h with h | h
      · obtain ⟨x, hx, he⟩ := List.mem_map.1 h
        injection he with he; subst he; exact Or.inl hx
      · obtain ⟨x, hx, he⟩ := List.mem_map.1 h
        injection he
    · rcases List.mem_append.1 h with h | h
      · obtain ⟨x, hx, he⟩ := List.mem_map.1 h
        injection he
      · obtain ⟨x, hx, he⟩ := List.mem_map.1 h
        injection he with h1 h2
        exact Or.inr (List.mem_map.2 ⟨x, hx, h1⟩)
  · rintro (h | h)
    · exact Or.inl (List.mem_append_left _ (List.mem_map.2 ⟨a, h, rfl⟩))
    · obtain ⟨p, hp, rfl⟩ := List.mem_map.1 h
      exact Or.inr ⟨p.2, List.mem_append_right _ (List.mem_map.2 ⟨p, hp, rfl⟩)⟩

theorem ops_wr (b : Body A V) (a : A) (h : Wr b.ops a) : a ∈ b.keys := by
  obtain ⟨f, h⟩ := h
  rcases List.mem_append.1 h with h | h
  · obtain ⟨x, hx, he⟩ := List.mem_map.1 h
    injection he
  · obtain ⟨x, hx, he⟩ := List.mem_map.1 h
    injection he with h1 h2
    exact List.mem_map.2 ⟨x, hx, h1⟩

theorem ops_ad (b : Body A V) (a : A) : ¬ Ad b.ops a := by
  rintro ⟨f, h⟩
  rcases List.mem_append.1 h with h | h <;>
    · obtain ⟨x, hx, he⟩ := List.mem_map.1 h
      injection he

/-- All stores of a loop as if made at the same time from the memory before the loop (specification). -/
def Simultaneous (inside : I → Bool) (B : I → Body A V) (m m' : A → V) : Prop :=
  (∀ i, inside i = true → ∀ p ∈ (B i).W, m' p.1 = (p.2 (snap (B i).R m)).getD (m p.1)) ∧
  ∀ a, (∀ i, inside i = true → a ∉ (B i).keys) → m' a = m a

/-- **C124, loops that load and then store.** If no iteration touches what another stores, every complete schedule has the
effect of all iterations at once. -/
theorem C124_simultaneous (inside : I → Bool) (B : I → Body A V) (s : Finset I) (hs : ∀ i, inside i = true → i ∈ s)
    (hn : ∀ i, (B i).keys.Nodup) (hsep : ∀ i j, i ≠ j → ∀ a ∈ (B i).keys, a ∉ (B j).R ∧ a ∉ (B j).keys)
    (m m' : A → V) (sched : List I) (h : Ends (loopOf inside B) m sched m') : Simultaneous inside B m m' := by
  have hprog : ∀ i, loopOf inside B i = if inside i then (B i).ops else [] := fun i => rfl
  have hr : RaceFree (loopOf inside B) := by
    intro i j a hij
    rw [hprog, hprog]
    by_cases hi : inside i = true
    · by_cases hj : inside j = true
      · rw [if_pos hi, if_pos hj]
        refine ⟨fun hw => ⟨fun hrw => ?_, ops_ad _ _⟩, fun had => absurd had (ops_ad _ _)⟩
        have := hsep i j hij a (ops_wr _ _ hw)
        rcases (ops_rw _ _).1 hrw with h | h
        · exact this.1 h
        · exact this.2 h
      · rw [if_neg hj]; simp [RW, Ad]
    · rw [if_neg hi]; simp [Wr, Ad]
  have hsum := ends_sum (loopOf inside B) s m m'
    (fun i hi => by rw [hprog, if_neg (fun h => hi (hs i h))]) hr sched h
  have hsolo : ∀ i, solo (B i).ops (0, m) = solo ((B i).W.map fun p => Op.write p.1 p.2) (snap (B i).R m, m) := by
    intro i
    rw [Body.ops, solo_append, solo_reads]
    rfl
  have other : ∀ i a, a ∉ (B i).keys → (solo (loopOf inside B i) (0, m)).2 a - m a = 0 := by
    intro i a ha
    rw [hprog]
    split_ifs
    · rw [hsolo, (solo_writes _ _ _ (hn i)).2 a ha, sub_self]
    · simp [solo]
  refine ⟨fun i hi p hp => ?_, fun a ha => ?_⟩
  · have hk : p.1 ∈ (B i).keys := List.mem_map.2 ⟨p, hp, rfl⟩
    rw [hsum, Finset.sum_eq_single_of_mem i (hs i hi) (fun j _ hji => other j p.1 (hsep i j hji.symm p.1 hk).2),
      hprog, if_pos hi, hsolo, (solo_writes _ _ _ (hn i)).1 p hp]
    abel
  · rw [hsum, Finset.sum_eq_zero, add_zero]
    intro i _
    by_cases hi : inside i = true
    · exact other i a (ha i hi)
    · rw [hprog, if_neg hi]; simp [solo]

end Nubhlight.Threads
