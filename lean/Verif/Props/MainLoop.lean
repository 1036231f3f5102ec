import Verif.Model.MainLoop
import Verif.Props.Control
import Verif.Props.PhotonMessages
import Verif.Props.SumMessages
import Verif.Props.TimeLoop

set_option autoImplicit false
set_option linter.unusedSectionVars false

/-! # C137: a run never blocks, and all ranks make the same steps and outputs -/

namespace Nubhlight.MainLoop

open Bounds Messages Control

/-! ## Instructions on parts of the memory -/

theorem agree_embed {R R' σ τ M M' : Type*} (e : R ≃ R') (get : τ → σ) (set : τ → σ → τ) (inj : M → M') (proj : M' → Option M) {I : R' → Instr R' σ M}
    (h : Agree I) : Agree fun r => embed e get set inj proj r (I (e r)) := by
  refine ⟨?_, ?_, ?_⟩
  · intro a b src tag pay store he
    cases hI : I (e a) with
    | comp f => rw [hI] at he; simp [embed] at he
    | coll kind f => rw [hI] at he; simp [embed] at he
    | xchg dst src' tag' pay' store' =>
      rw [hI] at he
      simp only [embed, Instr.xchg.injEq, Option.map_eq_some_iff] at he
      obtain ⟨⟨b0, rfl, hb⟩, -, rfl, -, -⟩ := he
      have hb0 : b0 = e b := by rw [← hb]; simp
      subst hb0
      obtain ⟨dst, p, st, e'⟩ := h.send (e a) (e b) _ _ _ _ hI
      exact ⟨dst.map e.symm, fun x => inj (p (get x)), fun x m => set x (st (get x) (m.bind proj)), by simp [e', embed]⟩
  · intro a b dst tag pay store he
    cases hI : I (e b) with
    | comp f => rw [hI] at he; simp [embed] at he
    | coll kind f => rw [hI] at he; simp [embed] at he
    | xchg dst' src' tag' pay' store' =>
      rw [hI] at he
      simp only [embed, Instr.xchg.injEq, Option.map_eq_some_iff] at he
      obtain ⟨-, ⟨a0, rfl, ha⟩, rfl, -, -⟩ := he
      have ha0 : a0 = e a := by rw [← ha]; simp
      subst ha0
      obtain ⟨src, p, st, e'⟩ := h.recv (e a) (e b) _ _ _ _ hI
      exact ⟨src.map e.symm, fun x => inj (p (get x)), fun x m => set x (st (get x) (m.bind proj)), by simp [e', embed]⟩
  · intro a b kind f he
    cases hI : I (e a) with
    | comp f => rw [hI] at he; simp [embed] at he
    | xchg dst src' tag' pay' store' => rw [hI] at he; simp [embed] at he
    | coll kind' f' =>
      rw [hI] at he
      simp only [embed, Instr.coll.injEq] at he
      obtain ⟨rfl, -⟩ := he
      obtain ⟨g, e'⟩ := h.coll (e a) (e b) _ _ hI
      exact ⟨fun W => set (W b) (g fun o => get (W (e.symm o))), by simp [e', embed]⟩

/-- The message a rank sends in an instruction. -/
def sentOf {R τ M : Type*} (I : R → Instr R τ M) (V : R → τ) (o : R) : Option M :=
  match I o with
  | .xchg _ _ _ pay _ => some (pay (V o))
  | _ => none

theorem exec_comp {R τ M : Type*} {I : R → Instr R τ M} {V : R → τ} {r : R} {f : τ → τ} (h : I r = .comp f) : exec I V r = f (V r) := by
  simp only [exec, h]

theorem exec_coll {R τ M : Type*} {I : R → Instr R τ M} {V : R → τ} {r : R} {kind : ℕ} {f : (R → τ) → τ} (h : I r = .coll kind f) : exec I V r = f V := by
  simp only [exec, h]

theorem exec_xchg {R τ M : Type*} {I : R → Instr R τ M} {V : R → τ} {r : R} {dst src : Option R} {tag : ℕ} {pay : τ → M} {store : τ → Option M → τ}
    (h : I r = .xchg dst src tag pay store) : exec I V r = store (V r) (src.bind (sentOf I V)) := by
  simp only [exec, h]
  rfl

/-- What an embedded instruction does when ranks run in step: the instruction on its part of the memory. -/
theorem exec_embed {R R' σ τ M M' : Type*} (e : R ≃ R') (get : τ → σ) (set : τ → σ → τ) (inj : M → M') (proj : M' → Option M)
    (hp : ∀ m, proj (inj m) = some m) (I : R' → Instr R' σ M) (V : R → τ) (r : R) :
    exec (fun r => embed e get set inj proj r (I (e r))) V r = set (V r) (exec I (fun o => get (V (e.symm o))) (e r)) := by
  cases hI : I (e r) with
  | comp f => rw [exec_comp hI, exec_comp (f := fun x => set x (f (get x))) (by simp only [hI, embed])]; simp
  | coll kind f =>
    rw [exec_coll hI, exec_coll (kind := kind) (f := fun W => set (W r) (f fun o => get (W (e.symm o)))) (by simp only [hI, embed])]
  | xchg dst src tag pay store =>
    rw [exec_xchg hI, exec_xchg (dst := dst.map e.symm) (src := src.map e.symm) (tag := tag) (pay := fun x => inj (pay (get x)))
      (store := fun x m => set x (store (get x) (m.bind proj))) (by simp only [hI, embed])]
    simp only [Equiv.symm_apply_apply]
    congr 2
    cases src with
    | none => rfl
    | some o =>
      simp only [Option.map_some, Option.bind_some, sentOf, Equiv.apply_symm_apply]
      cases I o <;> simp [embed, hp]

/-! ## Variables common to all ranks -/

variable {K : Type*} [Field K] [LinearOrder K] [IsStrictOrderedRing K] {d1 d2 d3 : Dim} {g : PhotonSync.Grid K} {τ : Type*}

/-- All ranks have the same values of the variables decisions are made from, with a property. -/
def On (P : Shared K → Prop) (V : Ranks d1 d2 d3 → Mem K τ) : Prop := ∃ s, P s ∧ ∀ r, (V r).sh = s

/-- Between instructions all ranks in step have the same values, and files written stay. -/
def Grow (V V' : Ranks d1 d2 d3 → Mem K τ) : Prop := (∃ s, ∀ r, (V' r).sh = s) ∧ ∀ r, (V r).sh.out <+: (V' r).sh.out

/-- An instruction that leaves them alone. -/
structure Frame (I : Ins K d1 d2 d3 τ) : Prop where
  agree : Agree I
  keep : ∀ V r, (exec I V r).sh = (V r).sh

theorem Frame.on {I : Ins K d1 d2 d3 τ} (h : Frame I) {P : Shared K → Prop} (V : Ranks d1 d2 d3 → Mem K τ) (hV : On P V) : On P (exec I V) := by
  obtain ⟨s, hs, hr⟩ := hV
  exact ⟨s, hs, fun r => (h.keep V r).trans (hr r)⟩

theorem Frame.grow {I : Ins K d1 d2 d3 τ} (h : Frame I) {P : Shared K → Prop} (V : Ranks d1 d2 d3 → Mem K τ) (hV : On P V) : Grow V (exec I V) := by
  obtain ⟨s, hs, hr⟩ := h.on V hV
  exact ⟨⟨s, hr⟩, fun r => by rw [h.keep V r]⟩

section frames
variable (S : Setup K d1 d2 d3 g τ)

theorem frame_wall : Frame (wall : Ins K d1 d2 d3 τ) := ⟨agree_barrier, fun _ _ => rfl⟩

theorem frame_work (c : String) : Frame (work S c) := ⟨agree_local _, fun _ _ => rfl⟩

theorem agree_coll {R σ M : Type*} (kind : ℕ) (f : R → (R → σ) → σ) : Agree (M := M) fun r => Instr.coll kind (f r) := by
  refine ⟨?_, ?_, ?_⟩
  · intros; simp_all
  · intros; simp_all
  · intro a b k f' h
    simp only [Instr.coll.injEq] at h
    exact ⟨f b, by rw [h.1]⟩

theorem frame_reduce (kind : ℕ) (c : String) : Frame (reduce S kind c) := ⟨agree_coll kind _, fun _ _ => rfl⟩

theorem frame_embed {R' σ M : Type*} (e : Ranks d1 d2 d3 ≃ R') (get : Mem K τ → σ) (set : Mem K τ → σ → Mem K τ) (inj : M → Mess K)
    (proj : Mess K → Option M) (hset : ∀ x y, (set x y).sh = x.sh) {I : R' → Instr R' σ M} (h : Agree I) :
    Frame fun r => embed e get set inj proj r (I (e r)) := by
  refine ⟨agree_embed e get set inj proj h, fun V r => ?_⟩
  cases hI : I (e r) with
  | comp f => rw [exec_comp (f := fun x => set x (f (get x))) (by simp only [hI, embed])]; exact hset _ _
  | coll kind f => rw [exec_coll (kind := kind) (f := fun W => set (W r) (f fun o => get (W (e.symm o)))) (by simp only [hI, embed])]; exact hset _ _
  | xchg dst src tag pay store =>
    rw [exec_xchg (dst := dst.map e.symm) (src := src.map e.symm) (tag := tag) (pay := fun x => inj (pay (get x)))
      (store := fun x m => set x (store (get x) (m.bind proj))) (by simp only [hI, embed])]
    exact hset _ _

theorem frame_own {R' σ M : Type*} (e : Ranks d1 d2 d3 ≃ R') (get : τ → σ) (set : τ → σ → τ) (inj : M → Mess K)
    (proj : Mess K → Option M) {I : R' → Instr R' σ M} (h : Agree I) :
    Frame fun r => embed e (fun m : Mem K τ => get m.own) (fun m x => { m with own := set m.own x }) inj proj r (I (e r)) :=
  frame_embed e (fun m : Mem K τ => get m.own) (fun m x => { m with own := set m.own x }) inj proj (fun _ _ => rfl) h

end frames

/-! ## Parts of the program -/

/-- Code that leaves these variables alone. -/
def Keeps (A : Prop) (code : Prg K d1 d2 d3 τ) : Prop := ∀ (E : (Ranks d1 d2 d3 → Mem K τ) → Prop) (P : Shared K → Prop), Tri Grow A E (On P) code (On P)

theorem Keeps.nil (A : Prop) : Keeps A ([] : Prg K d1 d2 d3 τ) := fun _ _ => Tri.nil fun _ h => h

theorem Keeps.append {A : Prop} {a b : Prg K d1 d2 d3 τ} (ha : Keeps A a) (hb : Keeps A b) : Keeps A (a ++ b) := fun E P => (ha E P).seq (hb E P)

theorem Keeps.opt {A : Prop} {c : Bool} {a : Prg K d1 d2 d3 τ} (ha : Keeps A a) : Keeps A (if c then a else []) := by
  split_ifs
  · exact ha
  · exact Keeps.nil A

theorem Keeps.straight {A : Prop} {l : List (Ins K d1 d2 d3 τ)} (h : ∀ I ∈ l, Frame I) : Keeps A (Control.straight l) :=
  fun _ _ => Tri.straight (fun I hI => (h I hI).agree) (fun I hI V hV => (h I hI).grow V hV) fun I hI V hV => (h I hI).on V hV

theorem Keeps.ite {A : Prop} {own : Bool} {c : Ranks d1 d2 d3 → Mem K τ → Bool} {a b : Prg K d1 d2 d3 τ}
    (hc : (A ∧ own = true) ∨ ∀ P V, On P V → Same c V) (ha : Keeps A a) (hb : Keeps A b) : Keeps A [.ite own c a b] := fun E P =>
  Tri.ite (hc.imp id fun h V hV => h P V hV) ((ha E P).weaken (fun _ h => h.1) fun _ h => h) ((hb E P).weaken (fun _ h => h.1) fun _ h => h)

theorem same_of_on {P : Shared K → Prop} {V : Ranks d1 d2 d3 → Mem K τ} (c : Shared K → Bool) (h : On P V) : Same (fun _ m => c m.sh) V := by
  obtain ⟨s, -, hr⟩ := h
  intro r r'
  simp only [hr]

/-- Ranks decide alike about their own zones and the end of the program. -/
structure Alike (S : Setup K d1 d2 d3 g τ) : Prop where
  again : ∀ c V, Same (fun r (m : Mem K τ) => S.again c r m.own) V
  many : S.cfg.radiation = true → ∀ V, Same (fun r (m : Mem K τ) => decide (r = S.root) && S.many m.own) V

section parts
variable (S : Setup K d1 d2 d3 g τ) {A : Prop} (hA : A ∨ Alike S)

theorem keeps_timed (c : String) : Keeps A (timed S c) := by
  refine Keeps.straight fun I hI => ?_
  simp only [List.mem_cons, List.mem_nil_iff, or_false] at hI
  rcases hI with rfl | rfl | rfl
  · exact frame_wall
  · exact frame_work S c
  · exact frame_wall

theorem bound_agree (fill : Fin 3 → Bool → ℤ → ℤ → (ℤ → Cell K) → ℤ → Cell K) (chk : Ranks d1 d2 d3 → Zones K → Zones K) :
    ∀ I ∈ boundList d1 d2 d3 fill chk, Agree I := Messages.bound_agree fill chk

/-- The boundary update of the run is that of `Messages`. -/
theorem boundList_prog (fill : Fin 3 → Bool → ℤ → ℤ → (ℤ → Cell K) → ℤ → Cell K) (chk : Ranks d1 d2 d3 → Zones K → Zones K) :
    Messages.common (boundList d1 d2 d3 fill chk) = boundProg d1 d2 d3 fill chk := rfl

theorem keeps_bound (get : τ → Zones K) (set : τ → Zones K → τ) : Keeps A (bound S get set) := by
  refine Keeps.straight fun I hI => ?_
  obtain ⟨I0, h0, rfl⟩ := List.mem_map.1 hI
  exact frame_own (Equiv.refl _) _ _ _ _ (bound_agree _ _ I0 h0)

theorem keeps_advance (c : String) : Keeps A (advance S c) := by
  refine Keeps.straight fun I hI => ?_
  simp only [List.mem_cons, List.mem_nil_iff, or_false] at hI
  rcases hI with rfl | rfl | rfl | rfl | rfl | rfl | rfl | rfl | rfl | rfl | rfl | rfl | rfl | rfl
  all_goals first | exact frame_wall | exact frame_work S _ | exact frame_reduce S _ _

include hA in
theorem keeps_repair (c : String) : Keeps A (repair S c) := by
  refine Keeps.append (Keeps.append (Keeps.straight ?_) (Keeps.ite ?_ (keeps_timed S _) (Keeps.nil A))) (Keeps.straight ?_)
  · intro I hI
    simp only [List.mem_cons, List.mem_nil_iff, or_false] at hI
    rcases hI with rfl | rfl
    · exact frame_wall
    · exact frame_work S _
  · exact hA.imp (fun h => ⟨h, rfl⟩) fun h _ V _ => h.again c V
  · intro I hI
    simp only [List.mem_cons, List.mem_nil_iff, or_false] at hI
    exact hI ▸ frame_wall

include hA in
theorem keeps_mend (c : String) : Keeps A (mend S c) :=
  (((Keeps.opt (keeps_timed S _)).append (keeps_timed S _)).append (keeps_repair S hA c)).append
    (Keeps.opt ((keeps_timed S _).append (Keeps.opt ((keeps_timed S _).append (keeps_timed S _)))))

theorem sumG_agree (n : ℕ) : ∀ I ∈ sumG (K := K) d1 d2 d3 n, Agree I := by
  intro I hI
  simp only [sumG, List.mem_append, List.mem_singleton] at hI
  rcases hI with ((rfl | h) | h) | h
  · exact agree_local _
  all_goals exact SumMessages.direction_agree _ I h

theorem keeps_packets : Keeps A (packets S) := by
  refine Keeps.straight fun I hI => ?_
  simp only [List.mem_append, List.mem_cons, List.mem_nil_iff, or_false, List.mem_map] at hI
  rcases hI with (((((((rfl | rfl) | ⟨I0, h, rfl⟩) | rfl) | ⟨I0, h, rfl⟩) | ⟨I0, h, rfl⟩) | ⟨I0, h, rfl⟩) | ⟨I0, h, rfl⟩) | rfl
  · exact frame_wall
  · exact frame_work S _
  · exact frame_own S.e _ _ _ _ (PhotonMessages.exchange_agree g I0 h)
  · exact frame_work S _
  · exact frame_own (Equiv.refl _) _ _ _ _ (sumG_agree _ I0 h)
  · exact frame_own (Equiv.refl _) _ _ _ _ (SumMessages.sumClear_agree I0 h)
  · exact frame_own (Equiv.refl _) _ _ _ _ (SumMessages.sumClear_agree I0 h)
  · exact frame_own (Equiv.refl _) _ _ _ _ (SumMessages.sumClear_agree I0 h)
  · exact frame_wall

theorem keeps_oscillate : Keeps A (oscillate S) := by
  refine Keeps.straight fun I hI => ?_
  simp only [List.mem_cons, List.mem_nil_iff, or_false] at hI
  rcases hI with rfl | rfl | rfl | rfl | rfl | rfl | rfl | rfl | rfl | rfl
  all_goals first | exact frame_wall | exact frame_work S _ | exact frame_reduce S _ _

theorem keeps_radiate : Keeps A (radiate S) := by
  refine (((((keeps_timed S _).append (keeps_timed S _)).append (keeps_timed S _)).append (keeps_timed S _)).append (keeps_packets S)).append (Keeps.opt ?_)
  exact Keeps.ite (Or.inr fun P V h => same_of_on (fun s => decide (s.dtOsc ≤ s.clk.dt)) h) (keeps_oscillate S) (Keeps.nil A)

theorem keeps_one (c : String) : Keeps A (Control.straight [work S c]) := Keeps.straight fun I hI => by
  simp only [List.mem_cons, List.mem_nil_iff, or_false] at hI
  exact hI ▸ frame_work S c

theorem keeps_wall : Keeps A (Control.straight [wall] : Prg K d1 d2 d3 τ) := Keeps.straight fun I hI => by
  simp only [List.mem_cons, List.mem_nil_iff, or_false] at hI
  exact hI ▸ frame_wall

include hA in
theorem keeps_exert : Keeps A (exert S) :=
  (((((keeps_timed S _).append (keeps_timed S _)).append (keeps_repair S hA _)).append (Keeps.opt ((keeps_one S _).append (keeps_timed S _)))).append
    (keeps_bound S _ _)).append (keeps_one S _)

theorem keeps_counts : Keeps A (counts S) := by
  refine Keeps.straight fun I hI => ?_
  simp only [List.mem_cons, List.mem_nil_iff, or_false] at hI
  rcases hI with rfl | rfl | rfl | rfl | rfl | rfl | rfl | rfl | rfl | rfl | rfl | rfl | rfl
  all_goals first | exact frame_wall | exact frame_work S _ | exact frame_reduce S _ _

end parts

/-! ## Changes of the common variables -/

section changes
variable {A : Prop} {E : (Ranks d1 d2 d3 → Mem K τ) → Prop} {P P' : Shared K → Prop}

theorem tri_common (f : Shared K → Shared K) (h : ∀ s, P s → P' (f s)) (hf : ∀ s, s.out <+: (f s).out := by intro s; simp) : Tri Grow A E (On P) [.instr (common f : Ins K d1 d2 d3 τ)] (On P') := by
  refine Tri.instr (agree_local _) ?_ ?_
  · rintro V ⟨s, -, hr⟩
    exact ⟨⟨f s, fun r => by show f (V r).sh = _; rw [hr r]⟩, fun r => hf _⟩
  rintro V ⟨s, hs, hr⟩
  exact ⟨f s, h s hs, fun r => by show f (V r).sh = _; rw [hr r]⟩

theorem tri_reduceTo (kind : ℕ) (f : (Ranks d1 d2 d3 → Mem K τ) → K) (set : K → Shared K → Shared K)
    (h : ∀ V s, P s → (∀ r, (V r).sh = s) → P' (set (f V) s)) (hf : ∀ x s, s.out <+: (set x s).out := by intro x s; simp) : Tri Grow A E (On P) [.instr (reduceTo kind f set : Ins K d1 d2 d3 τ)] (On P') := by
  refine Tri.instr (agree_coll kind _) ?_ ?_
  · rintro V ⟨s, -, hr⟩
    exact ⟨⟨set (f V) s, fun r => by show set (f V) (V r).sh = _; rw [hr r]⟩, fun r => hf _ _⟩
  rintro V ⟨s, hs, hr⟩
  exact ⟨set (f V) s, h V s hs hr, fun r => by show set (f V) (V r).sh = _; rw [hr r]⟩

theorem tri_frame {I : Ins K d1 d2 d3 τ} (h : Frame I) : Tri Grow A E (On P) [.instr I] (On P) := Tri.instr h.agree (fun V hV => h.grow V hV) fun V hV => h.on V hV

theorem tri_on_ite {c : Shared K → Bool} {a b : Prg K d1 d2 d3 τ} {J : (Ranks d1 d2 d3 → Mem K τ) → Prop}
    (ha : Tri Grow A E (On fun s => P s ∧ c s = true) a J) (hb : Tri Grow A E (On fun s => P s ∧ c s = false) b J) [Nonempty (Ranks d1 d2 d3)] :
    Tri Grow A E (On P) [.ite false (fun _ m => c m.sh) a b] J := by
  obtain ⟨r0⟩ := ‹Nonempty (Ranks d1 d2 d3)›
  refine Tri.ite (Or.inr fun V h => same_of_on c h) (ha.weaken ?_ fun _ h => h) (hb.weaken ?_ fun _ h => h)
  · rintro V ⟨⟨s, hs, hr⟩, hc⟩
    exact ⟨s, ⟨hs, by rw [← hr r0]; exact hc r0⟩, hr⟩
  · rintro V ⟨⟨s, hs, hr⟩, hc⟩
    exact ⟨s, ⟨hs, by rw [← hr r0]; exact hc r0⟩, hr⟩

theorem tri_on_exit {c : Shared K → Bool} [Nonempty (Ranks d1 d2 d3)] (hE : ∀ V s, P s → (∀ r, (V r).sh = s) → c s = true → E V) :
    Tri (M := Mess K) Grow A E (On P) [.exit false (fun _ m => c m.sh)] (On fun s => P s ∧ c s = false) := by
  obtain ⟨r0⟩ := ‹Nonempty (Ranks d1 d2 d3)›
  refine (Tri.exit (Or.inr fun V h => same_of_on c h) ?_).weaken (fun _ h => h) ?_
  · rintro V ⟨s, hs, hr⟩ hc
    exact hE V s hs hr (by rw [← hr r0]; exact hc r0)
  · rintro V ⟨⟨s, hs, hr⟩, hc⟩
    exact ⟨s, ⟨hs, by rw [← hr r0]; exact hc r0⟩, hr⟩

theorem on_mono (h : ∀ s, P s → P' s) (V : Ranks d1 d2 d3 → Mem K τ) (hV : On P V) : On P' V := by
  obtain ⟨s, hs, hr⟩ := hV
  exact ⟨s, h s hs, hr⟩

end changes

/-! ## The clock and the outputs -/

/-- Code that leaves the clock and the outputs alone. -/
def Steady (A : Prop) (E : (Ranks d1 d2 d3 → Mem K τ) → Prop) (code : Prg K d1 d2 d3 τ) : Prop :=
  ∀ Q : TimeLoop.St K → List TimeLoop.Ev → Prop, Tri Grow A E (On fun s => Q s.clk s.out) code (On fun s => Q s.clk s.out)

/-- Proposals for the next time step made by the ranks from some contents of memory. -/
def Made (S : Setup K d1 d2 d3 g τ) (p : TimeLoop.Proposal K) : Prop := ∃ W, p.1 :: p.2 = (allRanks d1 d2 d3).map (proposal S W)

/-- Ways for the program to end before the end of the run: division by zero, lepton number not conserved, too many packets on a single rank. -/
def Left (S : Setup K d1 d2 d3 g τ) (V : Ranks d1 d2 d3 → Mem K τ) : Prop :=
  S.cfg.DNr = 0 ∨ S.DTp = 0 ∨ (∃ s, (∀ r, (V r).sh = s) ∧ S.complain s.clk.nstep s.lepLast s.lepTot = true) ∨
    (∀ r, r = S.root) ∧ S.many (V S.root).own = true

section clock
variable (S : Setup K d1 d2 d3 g τ) {A : Prop} (hA : A ∨ Alike S) {E : (Ranks d1 d2 d3 → Mem K τ) → Prop}

theorem steady_of_keeps {code : Prg K d1 d2 d3 τ} (h : Keeps A code) : Steady A E code := fun Q => h E fun s => Q s.clk s.out

theorem Steady.append {a b : Prg K d1 d2 d3 τ} (ha : Steady A E a) (hb : Steady A E b) : Steady A E (a ++ b) := fun Q => (ha Q).seq (hb Q)

theorem steady_nil : Steady A E ([] : Prg K d1 d2 d3 τ) := fun _ => Tri.nil fun _ h => h

theorem Steady.opt {c : Bool} {a : Prg K d1 d2 d3 τ} (ha : Steady A E a) : Steady A E (if c then a else []) := by
  split_ifs
  · exact ha
  · exact steady_nil

theorem steady_cons {I : Ins K d1 d2 d3 τ} {l : List (Ins K d1 d2 d3 τ)} (hI : Steady A E [.instr I]) (hl : Steady A E (Control.straight l)) :
    Steady A E (Control.straight (I :: l)) := fun Q => Tri.cons (hI Q) (hl Q)

theorem steady_frame {I : Ins K d1 d2 d3 τ} (h : Frame I) : Steady A E [.instr I] := fun _ => tri_frame h

theorem steady_common {f : Shared K → Shared K} (h : ∀ s, (f s).clk = s.clk ∧ (f s).out = s.out) : Steady A E [.instr (common f : Ins K d1 d2 d3 τ)] :=
  fun Q => tri_common f (fun s hs => by rw [(h s).1, (h s).2]; exact hs) fun s => by rw [(h s).2]

theorem steady_reduceTo {kind : ℕ} {f : (Ranks d1 d2 d3 → Mem K τ) → K} {set : K → Shared K → Shared K}
    (h : ∀ x s, (set x s).clk = s.clk ∧ (set x s).out = s.out) : Steady A E [.instr (reduceTo kind f set : Ins K d1 d2 d3 τ)] :=
  fun Q => tri_reduceTo kind f set (fun V s hs _ => by rw [(h _ s).1, (h _ s).2]; exact hs) fun x s => by rw [(h x s).2]

theorem steady_oscTime : Steady A E (oscTime S) :=
  steady_cons (steady_frame frame_wall) (steady_cons (steady_frame (frame_work S _)) (steady_cons (steady_reduceTo fun _ _ => ⟨rfl, rfl⟩)
    (steady_cons (steady_frame frame_wall) steady_nil)))

theorem steady_tune : Steady A E (tune S) := by
  have : Nonempty (Ranks d1 d2 d3) := ⟨S.root⟩
  refine ((steady_of_keeps (keeps_one S _)).append fun Q => ?_).append ?_
  · have hs : Steady A E (Control.straight [reduce S 4 "rad_utils.c:98", reduce S 4 "rad_utils.c:99", work S "rad_utils.c:101",
        common (fun s => { s with tTune := s.tTune + S.dtTune }), work S "make_superphotons.c:325", reduce S 3 "make_superphotons.c:339",
        work S "rad_utils.c:125"]) :=
      steady_cons (steady_frame (frame_reduce S _ _)) (steady_cons (steady_frame (frame_reduce S _ _)) (steady_cons (steady_frame (frame_work S _))
        (steady_cons (steady_common fun _ => ⟨rfl, rfl⟩) (steady_cons (steady_frame (frame_work S _)) (steady_cons (steady_frame (frame_reduce S _ _))
          (steady_cons (steady_frame (frame_work S _)) steady_nil))))))
    exact tri_on_ite (c := fun s => decide (s.clk.t ≥ s.tTune)) ((hs Q).weaken (on_mono fun _ h => h.1) fun _ h => h) (Tri.nil (on_mono fun _ h => h.1))
  · exact steady_cons (steady_frame (frame_reduce S _ _)) (steady_cons (steady_frame (frame_work S _)) steady_nil)

theorem steady_leptons : Steady A (Left S) (leptons S) := by
  have : Nonempty (Ranks d1 d2 d3) := ⟨S.root⟩
  refine (Steady.append ?_ fun Q => ?_).append (steady_of_keeps keeps_wall)
  · exact steady_cons (steady_frame (frame_reduce S _ _)) (steady_cons (steady_frame frame_wall) (steady_cons (steady_reduceTo fun _ _ => ⟨rfl, rfl⟩)
      (steady_cons (steady_frame (frame_work S _)) (steady_cons (steady_reduceTo fun _ _ => ⟨rfl, rfl⟩) (steady_cons (steady_frame (frame_work S _))
        (steady_cons (steady_reduceTo fun _ _ => ⟨rfl, rfl⟩) (steady_cons (steady_common fun _ => ⟨rfl, rfl⟩) steady_nil)))))))
  · refine (tri_on_exit (c := fun s => S.complain s.clk.nstep s.lepLast s.lepTot) fun V s _ hr hc => ?_).weaken (fun _ h => h) (on_mono fun _ h => h.1)
    exact Or.inr (Or.inr (Or.inl ⟨s, hr, hc⟩))

include hA in
theorem steady_many (hrad : S.cfg.radiation = true) : Steady A (Left S) ([.exit true fun r m => decide (r = S.root) && S.many m.own] : Prg K d1 d2 d3 τ) := fun Q => by
  refine (Tri.exit (hA.imp (fun h => ⟨h, rfl⟩) fun h V _ => h.many hrad V) fun V _ h => ?_).weaken (fun _ h => h) fun _ h => h.1
  have h' : ∀ r, r = S.root ∧ S.many (V r).own = true := fun r => by simpa using h r
  exact Or.inr (Or.inr (Or.inr ⟨fun r => (h' r).1, (h' S.root).2⟩))

theorem mem_allRanks (r : Ranks d1 d2 d3) : r ∈ allRanks d1 d2 d3 := by
  obtain ⟨a, b, c⟩ := r
  simp [allRanks]

omit [IsStrictOrderedRing K] in
theorem least_minDt (W : Ranks d1 d2 d3 → Mem K τ) (dt : K) (hr : ∀ r, (W r).sh.clk.dt = dt) :
    ∃ p, Made S p ∧ least (fun o => TimeLoop.capDt (W o).sh.clk.dt (proposal S W o)) = TimeLoop.minDt dt p := by
  have e : (fun o => TimeLoop.capDt (W o).sh.clk.dt (proposal S W o)) = fun o => TimeLoop.capDt dt (proposal S W o) := by funext o; rw [hr o]
  rw [e]
  cases hl : allRanks d1 d2 d3 with
  | nil => have := mem_allRanks S.root; simp [hl] at this
  | cons o l =>
    refine ⟨(proposal S W o, l.map (proposal S W)), ⟨W, by simp [hl]⟩, ?_⟩
    simp only [least, hl, List.map_cons, TimeLoop.minDt, List.map_map, Function.comp_def]

/-- `step` moves the clock like the time loop, with proposals made by the ranks. -/
theorem tri_tick (c : TimeLoop.St K) (o : List TimeLoop.Ev) :
    Tri Grow A E (On fun s => s.dtsave = c.dt ∧ s.clk = c ∧ s.out = o) (tick S) (On fun s => (∃ p, Made S p ∧ s.clk = TimeLoop.stepTime S.cfg c p) ∧ s.out = o) := by
  unfold tick
  have hap : ∀ a b : List (Ins K d1 d2 d3 τ), Control.straight (a ++ b) = Control.straight a ++ Control.straight b := fun a b => by simp [Control.straight]
  rw [hap, hap]
  refine Tri.seq (L := On fun s => s.dtsave = c.dt ∧ s.clk = { c with t := c.t + c.dt } ∧ s.out = o) (Tri.seq
    (L := On fun s => s.dtsave = c.dt ∧ s.clk = { c with t := c.t + c.dt } ∧ s.out = o) ?_ ?_) ?_
  · exact tri_common _ fun s hs => ⟨hs.1, by rw [hs.2.1], hs.2.2⟩
  · split_ifs
    · exact Tri.cons (tri_frame (frame_work S _)) (tri_reduceTo _ _ _ fun V s hs _ => hs)
    · exact Tri.nil fun _ h => h
  · refine Tri.cons (L := On fun s => s.dtsave = c.dt ∧ (∃ p, Made S p ∧ s.clk = { c with t := c.t + c.dt, dt := TimeLoop.minDt c.dt p }) ∧ s.out = o)
      (tri_reduceTo _ _ _ ?_) (tri_common _ ?_)
    · intro V s hs hr
      obtain ⟨p, hp, e⟩ := least_minDt S V c.dt fun r => by rw [hr r, hs.2.1]
      exact ⟨hs.1, ⟨p, hp, by simp only [e, hs.2.1]⟩, hs.2.2⟩
    · rintro s ⟨h1, ⟨p, hp, h2⟩, h3⟩
      exact ⟨⟨p, hp, by simp only [h2, h1, TimeLoop.stepTime]⟩, h3⟩

include hA in
theorem tri_step (c : TimeLoop.St K) (o : List TimeLoop.Ev) :
    Tri Grow A E (On fun s => s.clk = c ∧ s.out = o) (step S) (On fun s => (∃ p, Made S p ∧ s.clk = TimeLoop.stepTime S.cfg c p) ∧ s.out = o) := by
  unfold step
  refine Tri.seq ?_ (tri_tick S c o)
  have hk : Keeps A (advance S "step.c:49" ++ mend S "step.c:51" ++ bound S S.A.getH S.A.setH ++ (if S.cfg.radiation then radiate S else [])
      ++ advance S "step.c:91" ++ mend S "step.c:93" ++ bound S S.A.getP S.A.setP ++ (if S.cfg.radiation then exert S else [])
      ++ Control.straight [work S "step.c:128"]) :=
    (((((((keeps_advance S _).append (keeps_mend S hA _)).append (keeps_bound S _ _)).append (Keeps.opt (keeps_radiate S))).append
      (keeps_advance S _)).append (keeps_mend S hA _)).append (keeps_bound S _ _)).append (Keeps.opt (keeps_exert S hA)) |>.append (keeps_one S _)
  have h0 := (steady_oscTime S (A := A) (E := E)).opt (c := S.cfg.radiation && S.o.oscillations) fun clk out => clk = c ∧ out = o
  have h1 : Tri Grow A E (On fun s => s.clk = c ∧ s.out = o) (Control.straight [common (fun s => { s with dtsave := s.clk.dt }), work S "step.c:40"])
      (On fun s => s.dtsave = c.dt ∧ s.clk = c ∧ s.out = o) :=
    Tri.cons (tri_common _ fun s hs => ⟨by simp only [hs.1], hs⟩) (tri_frame (frame_work S _))
  have := h0.seq (h1.seq (hk E fun s => s.dtsave = c.dt ∧ s.clk = c ∧ s.out = o))
  simpa only [List.append_assoc] using this

/-- Instructions that leave the common variables alone. -/
inductive Frames : List (Ins K d1 d2 d3 τ) → Prop
  | nil : Frames []
  | cons {I l} : Frame I → Frames l → Frames (I :: l)

theorem Frames.append {a b : List (Ins K d1 d2 d3 τ)} (ha : Frames a) (hb : Frames b) : Frames (a ++ b) := by
  induction ha with
  | nil => exact hb
  | cons h _ ih => exact Frames.cons h ih

theorem Frames.ite {p : Prop} [Decidable p] {a b : List (Ins K d1 d2 d3 τ)} (ha : Frames a) (hb : Frames b) : Frames (if p then a else b) := by
  split_ifs
  · exact ha
  · exact hb

theorem Frames.keeps {l : List (Ins K d1 d2 d3 τ)} (h : Frames l) : Keeps A (Control.straight l) := by
  induction h with
  | nil => exact Keeps.nil A
  | cons h _ ih => exact fun E P => Tri.cons (tri_frame h) (ih E P)

theorem straight_append (a b : List (Ins K d1 d2 d3 τ)) : Control.straight (a ++ b) = Control.straight a ++ Control.straight b := by simp [Control.straight]

theorem tri_diag (c : String) (ev : TimeLoop.Ev) (clk : TimeLoop.St K) (o : List TimeLoop.Ev) :
    Tri Grow A E (On fun s => s.clk = clk ∧ s.out = o) (diag S c ev) (On fun s => s.clk = clk ∧ s.out = o ++ [ev]) := by
  unfold diag
  rw [List.append_assoc, List.append_assoc, List.append_assoc, straight_append]
  refine Tri.seq (tri_common _ (P' := fun s => s.clk = clk ∧ s.out = o ++ [ev]) fun s hs => ⟨hs.1, by simp only [hs.2]⟩) (Frames.keeps ?_ E _)
  repeat' first
    | exact Frames.nil
    | exact frame_work S _
    | exact frame_reduce S _ _
    | exact frame_wall
    | apply Frames.cons
    | apply Frames.append
    | apply Frames.ite

theorem tri_restart (c : String) (ev : TimeLoop.Ev) (clk : TimeLoop.St K) (o : List TimeLoop.Ev) :
    Tri Grow A E (On fun s => s.clk = clk ∧ s.out = o) (restart S c ev) (On fun s => s.clk = clk ∧ s.out = o ++ [ev]) :=
  Tri.cons (tri_common _ fun s hs => ⟨hs.1, by simp only [hs.2]⟩) (Tri.cons (tri_frame frame_wall) (Tri.cons (tri_frame (frame_reduce S _ _)) (tri_frame frame_wall)))

/-- Outputs after a step, from the clock. -/
def after (cfg : TimeLoop.Cfg K) (s : TimeLoop.St K) : Option (TimeLoop.St K × List TimeLoop.Ev) :=
  if s.t < cfg.tf then
    if cfg.DNr = 0 then none
    else some ((TimeLoop.outPerm cfg (TimeLoop.outLog cfg (TimeLoop.outDump cfg s).1).1).1,
      (TimeLoop.outDump cfg s).2 ++ (TimeLoop.outLog cfg (TimeLoop.outDump cfg s).1).2 ++ TimeLoop.outTemp cfg (TimeLoop.outLog cfg (TimeLoop.outDump cfg s).1).1
        ++ (TimeLoop.outPerm cfg (TimeLoop.outLog cfg (TimeLoop.outDump cfg s).1).1).2)
  else some (s, [])

omit [IsStrictOrderedRing K] in
theorem iter_after (cfg : TimeLoop.Cfg K) (s : TimeLoop.St K) (p : TimeLoop.Proposal K) :
    TimeLoop.iter cfg s p = after cfg { TimeLoop.stepTime cfg { s with dumped := false } p with nstep := s.nstep + 1 } := rfl

theorem tri_outputs (c : TimeLoop.St K) (o : List TimeLoop.Ev) :
    Tri Grow A (Left S) (On fun s => s.clk = c ∧ s.out = o) (outputs S) (On fun s => ∃ ev, after S.cfg c = some (s.clk, ev) ∧ s.out = o ++ ev) := by
  have : Nonempty (Ranks d1 d2 d3) := ⟨S.root⟩
  unfold outputs
  refine tri_on_ite (c := fun s => decide (s.clk.t < S.cfg.tf)) ?_ (Tri.nil (on_mono ?_))
  swap
  · rintro s ⟨⟨rfl, rfl⟩, h⟩
    exact ⟨[], by simp only [decide_eq_false_iff_not] at h; simp [after, h], by simp⟩
  by_cases ht : c.t < S.cfg.tf
  swap
  · have hf : ∀ V : Ranks d1 d2 d3 → Mem K τ, ¬ On (fun s => (s.clk = c ∧ s.out = o) ∧ decide (s.clk.t < S.cfg.tf) = true) V := by
      rintro V ⟨s, ⟨⟨rfl, -⟩, h⟩, -⟩
      exact ht (by simpa using h)
    exact fun Q n k V hJ _ => absurd hJ (hf V)
  refine Tri.weaken (J := On fun s => s.clk = c ∧ s.out = o) ?_ (on_mono fun _ h => h.1) fun _ h => h
  refine Tri.cons (L := On fun s => s.clk = (TimeLoop.outDump S.cfg c).1 ∧ s.out = o ++ (TimeLoop.outDump S.cfg c).2) ?_ ?_
  · refine tri_on_ite (c := fun s => decide (s.clk.t ≥ s.clk.tdump)) ?_ (Tri.nil (on_mono ?_))
    · by_cases h : c.t ≥ c.tdump
      · refine Tri.weaken (J := On fun s => s.clk = c ∧ s.out = o) ?_ (on_mono fun _ h => h.1) fun _ h => h
        simp only [TimeLoop.outDump, if_pos h]
        refine ((tri_common _ ?_).seq (tri_diag S _ _ { c with dumped := true } o)).seq (tri_common _ ?_)
        · exact fun s hs => ⟨by simp only [hs.1], hs.2⟩
        · exact fun s hs => ⟨by simp only [hs.1], hs.2⟩
      · exact fun Q n k V hJ _ => absurd hJ (by rintro ⟨s, ⟨⟨rfl, -⟩, h'⟩, -⟩; exact h (by simpa using h'))
    · rintro s ⟨⟨rfl, rfl⟩, h⟩
      simp only [decide_eq_false_iff_not] at h
      simp [TimeLoop.outDump, h]
  generalize hb : (TimeLoop.outDump S.cfg c).1 = b
  generalize ho : o ++ (TimeLoop.outDump S.cfg c).2 = o1
  refine Tri.cons (L := On fun s => s.clk = (TimeLoop.outLog S.cfg b).1 ∧ s.out = o1 ++ (TimeLoop.outLog S.cfg b).2) ?_ ?_
  · refine tri_on_ite (c := fun s => decide (s.clk.t ≥ s.clk.tlog)) ?_ (Tri.nil (on_mono ?_))
    · by_cases h : b.t ≥ b.tlog
      · refine Tri.weaken (J := On fun s => s.clk = b ∧ s.out = o1) ?_ (on_mono fun _ h => h.1) fun _ h => h
        simp only [TimeLoop.outLog, if_pos h]
        exact (tri_diag S _ _ b o1).seq (tri_common _ fun s hs => ⟨by simp only [hs.1], hs.2⟩)
      · exact fun Q n k V hJ _ => absurd hJ (by rintro ⟨s, ⟨⟨rfl, -⟩, h'⟩, -⟩; exact h (by simpa using h'))
    · rintro s ⟨⟨rfl, rfl⟩, h⟩
      simp only [decide_eq_false_iff_not] at h
      simp [TimeLoop.outLog, h]
  generalize hl : (TimeLoop.outLog S.cfg b).1 = l
  generalize ho2 : o1 ++ (TimeLoop.outLog S.cfg b).2 = o2
  refine Tri.cons (tri_on_exit (c := fun _ => decide (S.cfg.DNr = 0)) fun V s _ _ h => Or.inl (by simpa using h)) ?_
  by_cases hd : S.cfg.DNr = 0
  · exact fun Q n k V hJ _ => absurd hJ (by rintro ⟨s, ⟨-, h'⟩, -⟩; exact absurd hd (by simpa using h'))
  refine Tri.cons (L := On fun s => s.clk = l ∧ s.out = o2 ++ TimeLoop.outTemp S.cfg l) ?_ ?_
  · refine Tri.weaken (J := On fun s => s.clk = l ∧ s.out = o2) ?_ (on_mono fun _ h => h.1) fun _ h => h
    refine tri_on_ite (c := fun s => decide ((s.clk.nstep : ℤ) % S.cfg.DNr = 0)) ?_ (Tri.nil (on_mono ?_))
    · by_cases h : (l.nstep : ℤ) % S.cfg.DNr = 0
      · simp only [TimeLoop.outTemp, if_pos h]
        exact (tri_restart S _ _ l o2).weaken (on_mono fun _ h => h.1) fun _ h => h
      · exact fun Q n k V hJ _ => absurd hJ (by rintro ⟨s, ⟨⟨rfl, -⟩, h'⟩, -⟩; exact h (by simpa using h'))
    · rintro s ⟨⟨rfl, rfl⟩, h⟩
      simp only [decide_eq_false_iff_not] at h
      simp [TimeLoop.outTemp, h]
  generalize ho3 : o2 ++ TimeLoop.outTemp S.cfg l = o3
  have fin : ∀ s : Shared K, s.clk = (TimeLoop.outPerm S.cfg l).1 ∧ s.out = o3 ++ (TimeLoop.outPerm S.cfg l).2 →
      ∃ ev, after S.cfg c = some (s.clk, ev) ∧ s.out = o ++ ev := by
    rintro s ⟨h1, h2⟩
    refine ⟨_, by rw [after, if_pos ht, if_neg hd, hb, hl, h1], ?_⟩
    rw [h2, ← ho3, ← ho2, ← ho]
    simp only [List.append_assoc]
  refine Tri.weaken (J' := On fun s => s.clk = (TimeLoop.outPerm S.cfg l).1 ∧ s.out = o3 ++ (TimeLoop.outPerm S.cfg l).2) ?_ (fun _ h => h) (on_mono fin)
  refine tri_on_ite (c := fun s => decide (s.clk.t ≥ s.clk.trestart)) ?_ (Tri.nil (on_mono ?_))
  · by_cases h : l.t ≥ l.trestart
    · refine Tri.weaken (J := On fun s => s.clk = l ∧ s.out = o3) ?_ (on_mono fun _ h => h.1) fun _ h => h
      simp only [TimeLoop.outPerm, if_pos h]
      exact (tri_restart S _ _ l o3).seq (tri_common _ fun s hs => ⟨by simp only [hs.1], hs.2⟩)
    · exact fun Q n k V hJ _ => absurd hJ (by rintro ⟨s, ⟨⟨rfl, -⟩, h'⟩, -⟩; exact h (by simpa using h'))
  · rintro s ⟨⟨rfl, rfl⟩, h⟩
    simp only [decide_eq_false_iff_not] at h
    simp [TimeLoop.outPerm, h]

theorem steady_report : Steady A (Left S) (report S) := by
  have : Nonempty (Ranks d1 d2 d3) := ⟨S.root⟩
  refine Steady.append (steady_cons (steady_frame (frame_work S _)) (steady_cons (steady_frame frame_wall) steady_nil)) fun Q => ?_
  refine Tri.cons ((tri_on_exit (c := fun _ => decide (S.DTp = 0)) fun V s _ _ h => Or.inr (Or.inl (by simpa using h))).weaken (fun _ h => h)
    (on_mono fun _ h => h.1)) ?_
  refine tri_on_ite (c := fun s => decide ((s.clk.nstep : ℤ) % S.DTp = 0)) ?_ (Tri.nil (on_mono fun _ h => h.1))
  refine Tri.weaken ((Keeps.straight (A := A) ?_) (Left S) fun s => Q s.clk s.out) (on_mono fun _ h => h.1) fun _ h => h
  intro I hI
  rw [List.mem_append] at hI
  rcases hI with h | h
  · split_ifs at h
    · rw [List.eq_of_mem_replicate h]; exact frame_reduce S _ _
    · simp at h
  · split_ifs at h
    · simp only [List.mem_append, List.mem_cons, List.mem_nil_iff, or_false] at h
      rcases h with ((rfl | rfl) | h) | rfl
      · exact frame_wall
      · exact frame_work S _
      · rw [List.eq_of_mem_replicate h]; exact frame_reduce S _ _
      · exact frame_wall
    · simp at h

include hA in
theorem tri_body (c : TimeLoop.St K) (o : List TimeLoop.Ev) :
    Tri Grow A (Left S) (On fun s => s.clk = c ∧ s.out = o) (body S)
      (On fun s => ∃ p ev, Made S p ∧ TimeLoop.iter S.cfg c p = some (s.clk, ev) ∧ s.out = o ++ ev) := by
  unfold body
  refine Tri.seq (L := On fun s => ∃ p ev, Made S p ∧ TimeLoop.iter S.cfg c p = some (s.clk, ev) ∧ s.out = o ++ ev) (Tri.seq (L := On fun s => ∃ p, Made S p ∧
    s.clk = { TimeLoop.stepTime S.cfg { c with dumped := false } p with nstep := c.nstep + 1 } ∧ s.out = o) ?_ ?_) ?_
  · have h1 : Tri Grow A (Left S) (On fun s => s.clk = c ∧ s.out = o)
        (Control.straight [common (fun s => { s with clk := { s.clk with dumped := false } }), wall])
        (On fun s => s.clk = { c with dumped := false } ∧ s.out = o) :=
      Tri.cons (tri_common _ fun s hs => ⟨by simp only [hs.1], hs.2⟩) (tri_frame frame_wall)
    have h2 : Tri Grow A (Left S) (On fun s => (∃ p, Made S p ∧ s.clk = TimeLoop.stepTime S.cfg { c with dumped := false } p) ∧ s.out = o)
        (Control.straight [common fun s => { s with clk := { s.clk with nstep := s.clk.nstep + 1 } }] : Prg K d1 d2 d3 τ)
        (On fun s => ∃ p, Made S p ∧ s.clk = { TimeLoop.stepTime S.cfg { c with dumped := false } p with nstep := c.nstep + 1 } ∧ s.out = o) := by
      refine tri_common _ ?_
      rintro s ⟨⟨p, hp, h⟩, ho⟩
      exact ⟨p, hp, by simp only [h, TimeLoop.stepTime], ho⟩
    have hm : Steady A (Left S) (if S.cfg.radiation then [.exit true fun r m => decide (r = S.root) && S.many m.own] else [] : Prg K d1 d2 d3 τ) := by
      split_ifs with hrad
      · exact steady_many S hA hrad
      · exact steady_nil
    have h3 : Steady A (Left S) ((if S.cfg.radiation then counts S else []) ++ Control.straight [wall]
        ++ (if S.cfg.radiation then [.exit true fun r m => decide (r = S.root) && S.many m.own] else [])
        ++ (if S.cfg.radiation then tune S ++ (if S.o.neutrinos then leptons S else []) else [])) :=
      (((Steady.opt (steady_of_keeps (keeps_counts S))).append (steady_of_keeps keeps_wall)).append hm).append
        (Steady.opt ((steady_tune S).append (Steady.opt (steady_leptons S))))
    have := ((h1.seq (tri_step S hA _ o)).seq h2).seq
      (h3 fun clk out => ∃ p, Made S p ∧ clk = { TimeLoop.stepTime S.cfg { c with dumped := false } p with nstep := c.nstep + 1 } ∧ out = o)
    simpa only [List.append_assoc] using this
  · intro Q n k V hJ hk
    obtain ⟨s, ⟨p, hp, h1, h2⟩, hr⟩ := hJ
    refine tri_outputs S _ o Q n k V ⟨s, ⟨h1, h2⟩, hr⟩ fun n' hn' V' hV' => hk n' hn' V' ?_
    obtain ⟨s', ⟨ev, h3, h4⟩, hr'⟩ := hV'
    exact ⟨s', ⟨p, ev, hp, by rw [iter_after]; exact h3, h4⟩, hr'⟩
  · exact steady_report S fun clk out => ∃ p ev, Made S p ∧ TimeLoop.iter S.cfg c p = some (clk, ev) ∧ out = o ++ ev

omit [IsStrictOrderedRing K] in
theorem run_snoc (cfg : TimeLoop.Cfg K) (ps : List (TimeLoop.Proposal K)) (p : TimeLoop.Proposal K) (c0 c c' : TimeLoop.St K) (ev : List TimeLoop.Ev)
    (tr : List (TimeLoop.St K × List TimeLoop.Ev)) (h : TimeLoop.run cfg ps c0 = some (tr, c)) (hl : tr.length = ps.length) (ht : c.t < cfg.tf)
    (hi : TimeLoop.iter cfg c p = some (c', ev)) : TimeLoop.run cfg (ps ++ [p]) c0 = some (tr ++ [(c', ev)], c') := by
  induction ps generalizing c0 tr with
  | nil =>
    simp only [TimeLoop.run, Option.some.injEq, Prod.mk.injEq] at h
    obtain ⟨rfl, rfl⟩ := h
    simp [TimeLoop.run, ht, hi]
  | cons q ps ih =>
    rw [List.cons_append, TimeLoop.run]
    rw [TimeLoop.run] at h
    split_ifs at h ⊢ with h0
    · cases hq : TimeLoop.iter cfg c0 q with
      | none => simp [hq] at h
      | some x =>
        obtain ⟨c1, ev1⟩ := x
        simp only [hq] at h ⊢
        cases hr : TimeLoop.run cfg ps c1 with
        | none => simp [hr] at h
        | some y =>
          obtain ⟨tr1, cf⟩ := y
          simp only [hr, Option.some.injEq, Prod.mk.injEq] at h
          obtain ⟨rfl, rfl⟩ := h
          rw [ih c1 tr1 hr (by simpa using hl)]
          rfl
    · simp only [Option.some.injEq, Prod.mk.injEq] at h
      obtain ⟨rfl, rfl⟩ := h
      simp at hl

/-- The end of a run from time `c0` with files `o0` written: as for the time loop with proposals made by the ranks, and all its outputs. -/
def Finished (S : Setup K d1 d2 d3 g τ) (c0 : TimeLoop.St K) (o0 : List TimeLoop.Ev) (V : Ranks d1 d2 d3 → Mem K τ) : Prop :=
  ∃ ps tr c, (∀ p ∈ ps, Made S p) ∧ TimeLoop.run S.cfg ps c0 = some (tr, c) ∧ tr.length = ps.length ∧ ¬ c.t < S.cfg.tf ∧
    ∀ r, (V r).sh.clk = c ∧ (V r).sh.out = o0 ++ tr.flatMap (·.2) ++ TimeLoop.finish c

include hA in
theorem tri_main (c0 : TimeLoop.St K) (o0 : List TimeLoop.Ev) : Tri Grow A (Left S) (On fun s => s.clk = c0 ∧ s.out = o0) (main S) (Finished S c0 o0) := by
  have : Nonempty (Ranks d1 d2 d3) := ⟨S.root⟩
  let J : TimeLoop.St K → List TimeLoop.Ev → Prop := fun clk out => ∃ ps tr, (∀ p ∈ ps, Made S p) ∧ TimeLoop.run S.cfg ps c0 = some (tr, clk) ∧
    tr.length = ps.length ∧ out = o0 ++ tr.flatMap (·.2)
  have hl : Tri Grow A (Left S) (On fun s => J s.clk s.out) [.loop (fun _ m => decide (m.sh.clk.t < S.cfg.tf)) (body S)]
      (fun V => On (fun s => J s.clk s.out) V ∧ ∀ r : Ranks d1 d2 d3, decide ((V r).sh.clk.t < S.cfg.tf) = false) := by
    refine Tri.loop (fun V h => same_of_on (fun s => decide (s.clk.t < S.cfg.tf)) h) ?_
    rintro Q n k V ⟨⟨s, ⟨ps, tr, h1, h2, h3, h4⟩, hr⟩, ht⟩ hk
    refine tri_body S hA s.clk s.out Q n k V ⟨s, ⟨rfl, rfl⟩, hr⟩ fun n' hn' V' hV' => hk n' hn' V' ?_
    obtain ⟨s', ⟨p, ev, hp, hi, ho⟩, hr'⟩ := hV'
    have ht' : s.clk.t < S.cfg.tf := by have := ht S.root; rw [hr S.root] at this; simpa using this
    refine ⟨s', ⟨ps ++ [p], tr ++ [(s'.clk, ev)], ?_, run_snoc S.cfg ps p c0 s.clk s'.clk ev tr h2 h3 ht' hi, by simp [h3], ?_⟩, hr'⟩
    · intro q hq
      rcases List.mem_append.1 hq with h | h
      · exact h1 q h
      · simp only [List.mem_singleton] at h; exact h ▸ hp
    · rw [ho, h4]; simp
  unfold main
  refine Tri.cons (hl.weaken (on_mono ?_) fun _ h => h) ?_
  · rintro s ⟨rfl, rfl⟩
    exact ⟨[], [], by simp, rfl, rfl, by simp⟩
  · rintro Q n k V ⟨⟨s, ⟨ps, tr, h1, h2, h3, h4⟩, hr⟩, ht⟩ hk
    have ht' : ¬ s.clk.t < S.cfg.tf := by have := ht S.root; rw [hr S.root] at this; simpa using this
    refine (tri_on_ite (P := fun x => x.clk = s.clk ∧ x.out = s.out) (c := fun x => decide (x.clk.dumped = false))
      (J := On fun x => x.clk = s.clk ∧ x.out = s.out ++ TimeLoop.finish s.clk) ?_ (Tri.nil (on_mono ?_))) Q n k V ⟨s, ⟨rfl, rfl⟩, hr⟩ fun n' hn' V' hV' => hk n' hn' V' ?_
    · by_cases hd : s.clk.dumped = false
      · simp only [TimeLoop.finish, if_pos hd]
        exact (tri_diag S _ _ s.clk s.out).weaken (on_mono fun _ h => h.1) fun _ h => h
      · exact fun Q n k V hJ _ => absurd hJ (by rintro ⟨x, ⟨⟨e, -⟩, h'⟩, -⟩; exact hd (by rw [← e]; simpa using h'))
    · rintro x ⟨⟨e1, e2⟩, h⟩
      refine ⟨e1, ?_⟩
      have : ¬ s.clk.dumped = false := by rw [← e1]; simpa using h
      rw [TimeLoop.finish, if_neg this, e2]; simp
    · obtain ⟨x, ⟨e1, e2⟩, hr'⟩ := hV'
      refine ⟨ps, tr, s.clk, h1, h2, h3, ht', fun r => ?_⟩
      rw [hr' r, e1, e2, h4]
      exact ⟨rfl, rfl⟩

end clock

/-! ## C137 -/

/-- What is claimed of a run from memory `W`, in which all ranks have the clock and the other common variables `s0`: in every schedule it can go on, or after a
bounded number of events in every schedule it has ended on all ranks, all of them having made the steps and written the files of the time loop, unless all
ended the program early; and at all times files written by different ranks are the same as far as they have come. -/
structure Good (S : Setup K d1 d2 d3 g τ) (W : Ranks d1 d2 d3 → Mem K τ) (s0 : Shared K) : Prop where
  ends : (∀ m s, Sched fetch (begin_ (main S) W) m s → ∃ s', Step fetch false s s') ∨
    ∃ N V, (Finished S s0.clk s0.out V ∨ Left S V) ∧ ∀ m s, Sched fetch (begin_ (main S) W) m s →
      m ≤ N ∧ (Done fetch s ∨ ∃ s', Step fetch false s s') ∧ (Done fetch s → (∀ r, (s.loc r).1 = V r) ∧ ∀ a b t, s.chan a b t = [])
  files : ∀ m s, Sched fetch (begin_ (main S) W) m s → ∀ r r', (s.loc r).1.sh.out <+: (s.loc r').1.sh.out ∨ (s.loc r').1.sh.out <+: (s.loc r).1.sh.out

theorem good (S : Setup K d1 d2 d3 g τ) (A : Prop) (hA : A ∨ Alike S) (W : Ranks d1 d2 d3 → Mem K τ) (s0 : Shared K) (hW : ∀ r, (W r).sh = s0)
    (hno : A → ∀ n, ¬ Splits (lockD fetch (begin_ (main S) W) n)) : Good S W s0 := by
  have : Nonempty (Ranks d1 d2 d3) := ⟨S.root⟩
  have hs : ∀ m, Safe Grow A (Finished S s0.clk s0.out) (Left S) m (main S) W := (tri_main S hA s0.clk s0.out).safe ⟨s0, ⟨rfl, rfl⟩, hW⟩
  refine ⟨?_, ?_⟩
  · rcases safe_runs Grow A _ _ (main S) W hs hno with h | ⟨N, V, hV, h⟩
    · exact Or.inl h
    · refine Or.inr ⟨_, V, hV, fun m s hm => ⟨(h m s hm).1, (h m s hm).2.1, fun hd => ⟨fun r => ?_, ((h m s hm).2.2 hd).2⟩⟩⟩
      rw [((h m s hm).2.2 hd).1 r]
  · intro m s hm r r'
    have hg := lock_grow Grow A _ _ (main S) W hs hno
    have one : ∀ n r, (lockD fetch (begin_ (main S) W) n r).1.sh.out <+: (lockD fetch (begin_ (main S) W) (n + 1) r).1.sh.out := by
      intro n r
      rcases hg n with h | h
      · rw [h r]
      · exact h.2 r
    have mono : ∀ n k r, (lockD fetch (begin_ (main S) W) n r).1.sh.out <+: (lockD fetch (begin_ (main S) W) (n + k) r).1.sh.out := by
      intro n k r
      induction k with
      | zero => exact List.prefix_rfl
      | succ k ih => exact ih.trans (one (n + k) r)
    have same : ∀ n, ∃ x, ∀ r, (lockD fetch (begin_ (main S) W) n r).1.sh = x := by
      intro n
      induction n with
      | zero => exact ⟨s0, hW⟩
      | succ n ih =>
        obtain ⟨x, hx⟩ := ih
        rcases hg n with h | h
        · exact ⟨x, fun r => by rw [h r, hx r]⟩
        · exact h.1
    have hl := safe_loc Grow A _ _ (main S) W hs hno hm
    have key : ∀ r r', s.pc r ≤ s.pc r' → (s.loc r).1.sh.out <+: (s.loc r').1.sh.out := by
      intro r r' hle
      obtain ⟨k, hk⟩ := Nat.exists_eq_add_of_le hle
      obtain ⟨x, hx⟩ := same (s.pc r)
      have := mono (s.pc r) k r'
      rw [hx r'] at this
      rw [hl r, hl r', hx r, hk]
      exact this
    rcases le_total (s.pc r) (s.pc r') with h | h
    · exact Or.inl (key r r' h)
    · exact Or.inr (key r' r h)

/-- **C137, partial.** If ranks do not decide differently on their own zones (give up all of them or not) and on leaving the program, a run is as claimed.
Missing: runs in which they do; `C137_full_false`. -/
theorem C137_run_partial (S : Setup K d1 d2 d3 g τ) (W : Ranks d1 d2 d3 → Mem K τ) (s0 : Shared K) (hW : ∀ r, (W r).sh = s0)
    (hno : ∀ n, ¬ Splits (lockD fetch (begin_ (main S) W) n)) : Good S W s0 :=
  good S True (Or.inl trivial) W s0 hW fun _ => hno

/-- **C137, partial.** A run in which these decisions cannot differ is as claimed. Missing as above. -/
theorem C137_alike_partial (S : Setup K d1 d2 d3 g τ) (hS : Alike S) (W : Ranks d1 d2 d3 → Mem K τ) (s0 : Shared K) (hW : ∀ r, (W r).sh = s0) : Good S W s0 :=
  good S False (Or.inr hS) W s0 hW fun h => h.elim

/-- **C137, partial.** A run on one rank is as claimed. Missing: more ranks. -/
theorem C137_single_partial (S : Setup K d1 d2 d3 g τ) (h1 : ∀ r, r = S.root) (W : Ranks d1 d2 d3 → Mem K τ) : Good S W (W S.root).sh :=
  C137_alike_partial S ⟨fun _ V r r' => by rw [h1 r, h1 r'], fun _ V r r' => by rw [h1 r, h1 r']⟩ W _ fun r => by rw [h1 r]


/-! ## Every run ends -/

section flat
variable (S : Setup K d1 d2 d3 g τ)

theorem flat_body : Flat (body S) := by
  unfold body step oscTime advance mend fixup repair timed bound radiate packets oscillate exert tick counts tune leptons outputs report diag restart
  repeat' first
    | exact Flat.nil
    | exact flat_straight _
    | apply flat_opt
    | apply Flat.append
    | apply flat_ite
    | apply Flat.exit

theorem flat_diag (c : String) (ev : TimeLoop.Ev) : Flat (diag S c ev) := flat_straight _

end flat

/-- Ranks in step come to the end of the program, if the time loop does for all proposals they can make. -/
theorem goes_end [Archimedean K] (S : Setup K d1 d2 d3 g τ) (A : Prop) (hA : A ∨ Alike S) (W : Ranks d1 d2 d3 → Mem K τ) (s0 : Shared K) (hW : ∀ r, (W r).sh = s0)
    (hno : A → ∀ n, ¬ Splits (lockD fetch (begin_ (main S) W) n)) (hok : TimeLoop.Ok S.cfg s0.clk) (hdt : 0 < s0.clk.dt) (c : K) (hc : 0 < c)
    (hp : ∀ p, Made S p → TimeLoop.BoundedBelow S.cfg c p) : ∃ V, Goes (begin_ (main S) W) (begin_ [] V) := by
  have hne : Nonempty (Ranks d1 d2 d3) := ⟨S.root⟩
  by_contra hnot
  push Not at hnot
  -- states before passes
  let T := { V : Ranks d1 d2 d3 → Mem K τ // Goes (begin_ (main S) W) (begin_ (main S) V) ∧ ∃ s, ∀ r, (V r).sh = s }
  let clk : T → TimeLoop.St K := fun V => (V.1 S.root).sh.clk
  have early : ∀ V : T, (clk V).t < S.cfg.tf := by
    rintro ⟨V, hV, s, hs⟩
    by_contra ht
    have g1 := goes_loop (fun _ (m : Mem K τ) => decide (m.sh.clk.t < S.cfg.tf)) (body S)
      [.ite false (fun _ m => decide (m.sh.clk.dumped = false)) (diag S "main.c:270" .final) []] V false
      (fun r => by have : (V r).sh = (V S.root).sh := by rw [hs r, hs S.root]
                   simpa [this] using not_lt.1 ht)
    have g2 := goes_ite false (fun _ (m : Mem K τ) => decide (m.sh.clk.dumped = false)) (diag S "main.c:270" .final) [] [] V (decide ((V S.root).sh.clk.dumped = false))
      (fun r => by have : (V r).sh = (V S.root).sh := by rw [hs r, hs S.root]
                   rw [this])
    have g := (hV.trans g1).trans g2
    cases hd : decide ((V S.root).sh.clk.dumped = false) with
    | false => rw [hd] at g; exact hnot V g
    | true =>
      rw [hd] at g
      obtain ⟨V', h | h⟩ := flat_reaches (flat_diag S "main.c:270" .final) [] V
        ((tri_diag S (A := A) (E := fun _ => False) "main.c:270" .final s.clk s.out).safe ⟨s, ⟨rfl, rfl⟩, hs⟩) fun h => nosplit_goes g (hno h)
      · exact hnot V' (g.trans h.1)
      · exact h.2
  have pass : ∀ V : T, ∃ (V' : T) (p : TimeLoop.Proposal K) (ev : List TimeLoop.Ev), Made S p ∧ TimeLoop.iter S.cfg (clk V) p = some (clk V', ev) := by
    rintro ⟨V, hV, s, hs⟩
    have ht := early ⟨V, hV, s, hs⟩
    have g1 := goes_loop (fun _ (m : Mem K τ) => decide (m.sh.clk.t < S.cfg.tf)) (body S)
      [.ite false (fun _ m => decide (m.sh.clk.dumped = false)) (diag S "main.c:270" .final) []] V true
      (fun r => by have : (V r).sh = (V S.root).sh := by rw [hs r, hs S.root]
                   simpa [this] using ht)
    have g := hV.trans g1
    obtain ⟨V', h | h⟩ := flat_reaches (flat_body S) (main S) V ((tri_body S hA s.clk s.out).safe ⟨s, ⟨rfl, rfl⟩, hs⟩) fun h => nosplit_goes g (hno h)
    · obtain ⟨g', s', ⟨p, ev, hm, hi, -⟩, hs'⟩ := h
      refine ⟨⟨V', g.trans g', s', hs'⟩, p, ev, hm, ?_⟩
      show TimeLoop.iter S.cfg (V S.root).sh.clk p = some ((V' S.root).sh.clk, ev)
      rw [hs, hs', hi]
    · exact absurd (g.trans h.1) (hnot V')
  by_cases hD : S.cfg.DNr = 0
  · obtain ⟨V', p, ev, -, hi⟩ := pass ⟨W, Goes.refl _, s0, hW⟩
    have h' := early V'
    rw [iter_after, after] at hi
    split_ifs at hi with h1
    simp only [Option.some.injEq, Prod.mk.injEq] at hi
    rw [← hi.1] at h'
    exact h1 h'
  choose nx pr ev hm hi using pass
  let V0 : T := ⟨W, Goes.refl _, s0, hW⟩
  let at_ : ℕ → T := fun n => nx^[n] V0
  have hrun : ∀ n, ∃ tr, TimeLoop.run S.cfg ((List.range n).map fun i => pr (at_ i)) (clk V0) = some (tr, clk (at_ n)) ∧ tr.length = n := by
    intro n
    induction n with
    | zero => exact ⟨[], rfl, rfl⟩
    | succ n ih =>
      obtain ⟨tr, h1, h2⟩ := ih
      refine ⟨tr ++ [(clk (at_ (n + 1)), ev (at_ n))], ?_, by simp [h2]⟩
      rw [List.range_succ, List.map_append]
      refine run_snoc S.cfg _ _ _ _ _ _ tr h1 (by simp [h2]) (early _) ?_
      rw [hi (at_ n)]
      simp only [at_, Function.iterate_succ_apply']
  have e0 : clk V0 = s0.clk := by show (W S.root).sh.clk = _; rw [hW]
  obtain ⟨n, tr, sf, h1, h2⟩ := TimeLoop.C08_terminates S.cfg hD (clk V0) (by rw [e0]; exact hok) (by rw [e0]; exact hdt) (fun i => pr (at_ i)) ⟨c, hc, fun i => hp _ (hm _)⟩
  obtain ⟨tr', h3, -⟩ := hrun n
  rw [h3] at h1
  simp only [Option.some.injEq, Prod.mk.injEq] at h1
  have := early (at_ n)
  rw [h1.2, h2] at this
  exact lt_irrefl _ this

omit [IsStrictOrderedRing K] in
theorem sched_any (S : Setup K d1 d2 d3 g τ) (W : Ranks d1 d2 d3 → Mem K τ)
    (h : ∀ m s, Sched fetch (begin_ (main S) W) m s → ∃ s', Step fetch false s s') (m : ℕ) : ∃ s, Sched fetch (begin_ (main S) W) m s := by
  induction m with
  | zero => exact ⟨_, .start⟩
  | succ m ih =>
    obtain ⟨s, hs⟩ := ih
    obtain ⟨s', hs'⟩ := h m s hs
    exact ⟨s', .step m false s s' hs hs'⟩

/-- **C137 (end), partial.** If moreover the first step is positive and does not cross the end of the run, and the code has radiation or no rank ever proposes
steps below some bound, then every schedule ends, with the same result, which is that of the time loop unless all ranks end the program early. Missing: ranks
that decide differently; `C137_full_false`. -/
theorem C137_ends_partial [Archimedean K] (S : Setup K d1 d2 d3 g τ) (A : Prop) (hA : A ∨ Alike S) (W : Ranks d1 d2 d3 → Mem K τ) (s0 : Shared K)
    (hW : ∀ r, (W r).sh = s0) (hno : A → ∀ n, ¬ Splits (lockD fetch (begin_ (main S) W) n)) (hdt : 0 < s0.clk.dt) (htf : s0.clk.t + s0.clk.dt ≤ S.cfg.tf)
    (hp : S.cfg.radiation = true ∨ ∃ c, 0 < c ∧ ∀ V o, c ≤ proposal S V o) :
    ∃ N V, (Finished S s0.clk s0.out V ∨ Left S V) ∧ ∀ m s, Sched fetch (begin_ (main S) W) m s →
      m ≤ N ∧ (Done fetch s ∨ ∃ s', Step fetch false s s') ∧ (Done fetch s → (∀ r, (s.loc r).1 = V r) ∧ ∀ a b t, s.chan a b t = []) := by
  have hne : Nonempty (Ranks d1 d2 d3) := ⟨S.root⟩
  rcases (good S A hA W s0 hW hno).ends with h | h
  · exfalso
    have hex : ∃ V, Goes (begin_ (main S) W) (begin_ [] V) := by
      rcases hp with hr | ⟨c, hc, hb⟩
      · exact goes_end S A hA W s0 hW hno ⟨hdt.le, htf⟩ hdt 1 one_pos fun _ _ => Or.inl hr
      · refine goes_end S A hA W s0 hW hno ⟨hdt.le, htf⟩ hdt c hc fun p hm => Or.inr ?_
        obtain ⟨V, e⟩ := hm
        have hall : ∀ x ∈ p.1 :: p.2, c ≤ x := by
          rw [e]
          intro x hx
          obtain ⟨o, -, rfl⟩ := List.mem_map.1 hx
          exact hb V o
        exact ⟨hall _ (by simp), fun x hx => hall x (by simp [hx])⟩
    obtain ⟨V, hV⟩ := hex
    obtain ⟨N, hN⟩ := goes_ends hV
    obtain ⟨s, hs⟩ := sched_any S W h (N + 1)
    have := (hN _ s hs).1
    omega
  · exact h

/-! ## Leaving the program on one rank blocks the others -/

/-- **C137 in full.** Whatever ranks compute between messages, a run in which they start with the same clock never blocks. -/
def FullC137 : Prop := ∀ (d1 d2 d3 : Dim) (g : PhotonSync.Grid ℚ) (τ : Type) (S : Setup ℚ d1 d2 d3 g τ) (W : Ranks d1 d2 d3 → Mem ℚ τ) (s0 : Shared ℚ),
  d1.WF → d2.WF → d3.WF → (∀ r, (W r).sh = s0) → 0 < s0.clk.dt → s0.clk.t + s0.clk.dt ≤ S.cfg.tf → S.cfg.DNr ≠ 0 → S.DTp ≠ 0 →
  ∀ m s, Sched fetch (begin_ (main S) W) m s → Done fetch s ∨ ∃ b s', Step fetch b s s'

/-- Two ranks. -/
def two : PhotonSync.Grid ℚ := ⟨![2, 1, 1], fun _ => 0, fun _ => 1, fun _ => 0, ![2, 1, 1], fun _ => false, fun _ => false, fun _ => false⟩

/-- Ranks by coordinates. -/
def coords : Ranks pair.d1 pair.d2 pair.d3 ≃ PhotonSync.Rank two where
  toFun r := fun d => match d with
    | 0 => r.1
    | 1 => r.2.1
    | 2 => r.2.2
  invFun x := (x 0, x 1, x 2)
  left_inv := fun _ => rfl
  right_inv x := by funext d; fin_cases d <;> rfl

/-- A run of photons on two ranks that compute nothing, with or without too many packets. -/
def idle (many : Bool) : Setup ℚ pair.d1 pair.d2 pair.d3 two Unit where
  cfg := ⟨1, 1, 1, 1, 1, true⟩
  o := ⟨false, false, false, false, false, false, 0, 1, 4⟩
  cour := 1 / 2
  courCool := 1 / 2
  dtLight := 1
  dtTune := 1
  DTp := 1
  fill _ _ _ _ Z := Z
  chk _ Z := Z
  A := ⟨fun _ _ _ _ => ⟨fun _ => 0, 0⟩, fun _ _ => (), fun _ _ _ _ => ⟨fun _ => 0, 0⟩, fun _ _ => ()⟩
  e := coords
  getPost _ := ⟨[], fun _ _ => [], fun _ _ => 0, fun _ _ => 0, [], [], 0, 0, 0, 0, false⟩
  setPost _ _ := ()
  getSum _ _ := ⟨fun _ _ _ _ => 0, fun _ _ _ _ => 0⟩
  setSum _ _ _ := ()
  work _ _ _ _ := ()
  red _ _ _ := ()
  part _ _ _ := 1
  again _ _ _ := false
  many _ := many
  complain _ _ _ := false
  root := (⟨0, by decide⟩, ⟨0, by decide⟩, ⟨0, by decide⟩)

/-- Its start. -/
def fresh : Shared ℚ := ⟨TimeLoop.start ⟨1, 1, 1, 1, 1, true⟩ (1 / 2), 0, 0, 0, 1, 0, 0, 0, 0, 0, []⟩

/-- The part of a pass before the check of the number of packets. -/
def uptoCheck (S : Setup K d1 d2 d3 g τ) : Prg K d1 d2 d3 τ :=
  straight [common (fun s => { s with clk := { s.clk with dumped := false } }), wall] ++ step S
    ++ straight [common fun s => { s with clk := { s.clk with nstep := s.clk.nstep + 1 } }]
    ++ (if S.cfg.radiation then counts S else []) ++ straight [wall]

theorem alike_idle : Alike (idle false) := ⟨fun _ _ _ _ => rfl, fun _ _ _ _ => by simp [idle]⟩

/-- Non-vacuity: without too many packets every schedule ends as the time loop does. -/
example : ∃ N V, Finished (idle false) fresh.clk [] V ∧ ∀ m s, Sched fetch (begin_ (main (idle false)) fun _ => ⟨fresh, ()⟩) m s →
    m ≤ N ∧ (Done fetch s ∨ ∃ s', Step fetch false s s') ∧ (Done fetch s → (∀ r, (s.loc r).1 = V r) ∧ ∀ a b t, s.chan a b t = []) := by
  obtain ⟨N, V, h, hN⟩ := C137_ends_partial (idle false) False (Or.inr alike_idle) (fun _ => ⟨fresh, ()⟩) fresh (fun _ => rfl) (fun h => h.elim)
    (by norm_num [fresh, TimeLoop.start]) (by norm_num [fresh, TimeLoop.start, idle]) (Or.inl rfl)
  refine ⟨N, V, h.resolve_right ?_, hN⟩
  rintro (h | h | ⟨s, -, h⟩ | ⟨-, h⟩) <;> simp [idle] at h

/-- **C137 (the code).** It does block: the rank that writes the log leaves the program alone when the packets are too many (core/main.c:213-216), and the
others wait for it in the next reduction. -/
theorem C137_full_false : ¬ FullC137 := by
  intro hfull
  have h := hfull pair.d1 pair.d2 pair.d3 two Unit (idle true) (fun _ => ⟨fresh, ()⟩) fresh
    ⟨by norm_num [pair], by norm_num [pair], by simp [pair], by norm_num [pair, NG]⟩
    ⟨by norm_num [pair], by norm_num [pair], by simp [pair], by simp [pair, Dim.periodic]⟩
    ⟨by norm_num [pair], by norm_num [pair], by simp [pair], by simp [pair, Dim.periodic]⟩
    (fun _ => rfl) (by norm_num [fresh, TimeLoop.start]) (by norm_num [fresh, TimeLoop.start, idle]) (by simp [idle]) (by simp [idle])
  have hne : Nonempty (Ranks pair.d1 pair.d2 pair.d3) := ⟨(idle true).root⟩
  let a : Ranks pair.d1 pair.d2 pair.d3 := (⟨0, by decide⟩, ⟨0, by decide⟩, ⟨0, by decide⟩)
  let b : Ranks pair.d1 pair.d2 pair.d3 := (⟨1, by decide⟩, ⟨0, by decide⟩, ⟨0, by decide⟩)
  have hab : ∀ r, r = a ∨ r = b := by decide
  have hba : b ≠ a := by decide
  -- up to the check
  let post : Prg ℚ pair.d1 pair.d2 pair.d3 Unit := tune (idle true) ++ (outputs (idle true) ++ (report (idle true) ++ main (idle true)))
  have hbody : body (idle true) ++ main (idle true) =
      uptoCheck (idle true) ++ (.exit true (fun r m => decide (r = (idle true).root) && (idle true).many m.own) :: post) := by
    have e1 : (idle true).cfg.radiation = true := rfl
    have e2 : (idle true).o.neutrinos = false := rfl
    simp [body, uptoCheck, post, e1, e2]
  have hflat : Flat (uptoCheck (idle true)) := by
    unfold uptoCheck step oscTime advance mend fixup repair timed bound radiate packets oscillate exert tick counts
    repeat' first
      | exact Flat.nil
      | exact flat_straight _
      | apply flat_opt
      | apply Flat.append
      | apply flat_ite
  have htri : Tri Grow False (fun _ => False) (On fun s => s.clk = fresh.clk ∧ s.out = []) (uptoCheck (idle true)) fun _ => True := by
    have h1 : Tri Grow False (fun _ => False) (On fun s => s.clk = fresh.clk ∧ s.out = [])
        (Control.straight [common (fun s => { s with clk := { s.clk with dumped := false } }), wall] : Prg ℚ pair.d1 pair.d2 pair.d3 Unit)
        (On fun s => s.clk = { fresh.clk with dumped := false } ∧ s.out = []) :=
      Tri.cons (tri_common _ fun s hs => ⟨by simp only [hs.1], hs.2⟩) (tri_frame frame_wall)
    have h2 : Tri Grow False (fun _ => False) _ (step (idle true)) _ := tri_step (idle false) (Or.inr alike_idle) { fresh.clk with dumped := false } []
    have h3 : Tri Grow False (fun _ => False) (On fun s => (∃ p, Made (idle false) p ∧ s.clk = TimeLoop.stepTime (idle false).cfg { fresh.clk with dumped := false } p) ∧ s.out = [])
        (Control.straight [common fun s => { s with clk := { s.clk with nstep := s.clk.nstep + 1 } }] : Prg ℚ pair.d1 pair.d2 pair.d3 Unit) (On fun _ => True) :=
      tri_common _ fun _ _ => trivial
    have h4 : Keeps False ((if (idle true).cfg.radiation then counts (idle true) else []) ++ Control.straight [wall]) :=
      (Keeps.opt (keeps_counts _)).append keeps_wall
    have := ((h1.seq h2).seq h3).seq (h4 _ _)
    unfold uptoCheck
    simp only [← List.append_assoc] at this
    exact this.weaken (fun _ h => h) fun _ _ => trivial
  have g0 := goes_loop (M := Mess ℚ) (fun _ (m : Mem ℚ Unit) => decide (m.sh.clk.t < (idle true).cfg.tf)) (body (idle true))
    [.ite false (fun _ m => decide (m.sh.clk.dumped = false)) (diag (idle true) "main.c:270" .final) []] (fun _ : Ranks pair.d1 pair.d2 pair.d3 => ⟨fresh, ()⟩) true
    (fun r => by simp [fresh, TimeLoop.start, idle])
  obtain ⟨V, hV⟩ := flat_reaches hflat (.exit true (fun r m => decide (r = (idle true).root) && (idle true).many m.own) :: post) (fun _ => ⟨fresh, ()⟩)
    (htri.safe ⟨fresh, ⟨rfl, rfl⟩, fun _ => rfl⟩) (fun h => h.elim)
  rw [← hbody] at hV
  obtain ⟨N, eN, uN⟩ := g0.trans (hV.resolve_right fun h => h.2).1
  obtain ⟨m, s, hs, hloc, hsnd, hrcv, hchan⟩ := rounds_reached uN
  rw [eN] at hloc
  -- the first rank leaves, the second goes on
  obtain ⟨I, k, m', s', hs', la', lb', snd', rcv', chan', hI⟩ : ∃ (I : Ins ℚ pair.d1 pair.d2 pair.d3 Unit) (k : Prg ℚ pair.d1 pair.d2 pair.d3 Unit) (m' : ℕ) (s' : St _ _ _),
      Sched fetch (begin_ (main (idle true)) fun _ => ⟨fresh, ()⟩) m' s' ∧ (s'.loc a).2 = [] ∧ (s'.loc b).2 = .instr I :: k ∧
      (∀ r, s'.snd r = false) ∧ (∀ r, s'.rcv r = false) ∧ (∀ x y t, s'.chan x y t = []) ∧ ∃ kind f, I b = .coll kind f := by
    let quiet : St (Ranks pair.d1 pair.d2 pair.d3) (Mem ℚ Unit × Prg ℚ pair.d1 pair.d2 pair.d3 Unit) (Mess ℚ) → Prop := fun s =>
      (∀ r, s.snd r = false) ∧ (∀ r, s.rcv r = false) ∧ ∀ x y t, s.chan x y t = []
    have adv : ∀ (r o : Ranks pair.d1 pair.d2 pair.d3), o ≠ r → ∀ m s, Sched fetch (begin_ (main (idle true)) fun _ => ⟨fresh, ()⟩) m s → quiet s →
        ∀ f, fetch r (s.loc r) = some (.comp f) →
        ∃ m' s', Sched fetch (begin_ (main (idle true)) fun _ => ⟨fresh, ()⟩) m' s' ∧ quiet s' ∧ s'.loc o = s.loc o ∧ s'.loc r = f (s.loc r) := by
      intro r o ho m s hs hq f hf
      refine ⟨m + 1, _, .step m false s _ hs (.comp s r f hf), ⟨fun x => ?_, fun x => ?_, hq.2.2⟩, ?_, ?_⟩
      · simp only [St.leave, Function.update_apply]; split_ifs; exacts [rfl, hq.1 x]
      · simp only [St.leave, Function.update_apply]; split_ifs; exacts [rfl, hq.2.1 x]
      · simp only [St.leave, Function.update_apply, if_neg ho]
      · simp only [St.leave, Function.update_self]
    obtain ⟨m1, s1, h1, q1, o1, e1⟩ := adv a b hba m s hs ⟨hsnd, hrcv, hchan⟩ _ (by rw [hloc]; rfl)
    obtain ⟨m2, s2, h2, q2, o2, e2⟩ := adv b a hba.symm m1 s1 h1 q1 _ (by rw [o1, hloc]; rfl)
    have e2' : s2.loc b = (V b, post) := by rw [e2, o1, hloc]; rfl
    obtain ⟨m3, s3, h3, q3, o3, e3⟩ := adv b a hba.symm m2 s2 h2 q2 _ (by rw [e2']; rfl)
    rw [e2'] at e3
    obtain ⟨m4, s4, h4, q4, o4, e4⟩ := adv b a hba.symm m3 s3 h3 q3 _ (by rw [e3]; rfl)
    rw [e3] at e4
    have ha : (s4.loc a).2 = [] := by rw [o4, o3, o2, e1, hloc]; rfl
    by_cases hc : (V b).sh.clk.t ≥ (V b).sh.tTune
    · have h' := (congrArg Prod.snd e4).trans (if_pos (decide_eq_true hc))
      obtain ⟨k, hk⟩ := List.head?_eq_some_iff.1 (show (s4.loc b).2.head? = some (.instr (reduce (idle true) 4 "rad_utils.c:98")) by rw [h']; rfl)
      exact ⟨_, k, m4, s4, h4, ha, hk, q4.1, q4.2.1, q4.2.2, _, _, rfl⟩
    · have h' := (congrArg Prod.snd e4).trans (if_neg (by rw [decide_eq_true_eq]; exact hc))
      obtain ⟨k, hk⟩ := List.head?_eq_some_iff.1 (show (s4.loc b).2.head? = some (.instr (reduce (idle true) 4 "rad_utils.c:128")) by rw [h']; rfl)
      exact ⟨_, k, m4, s4, h4, ha, hk, q4.1, q4.2.1, q4.2.2, _, _, rfl⟩
  have ea : fetch a (s'.loc a) = none := by unfold fetch; rw [la']
  obtain ⟨kind, f, hI⟩ := hI
  have eb : ∃ f', fetch b (s'.loc b) = some (.coll kind f') := by
    unfold fetch; rw [lb']; simp only [hI, along]; exact ⟨_, rfl⟩
  obtain ⟨f', eb⟩ := eb
  have nx : ∀ r i, fetch r (s'.loc r) = some i → r = b ∧ i = .coll kind f' := by
    intro r i e
    rcases hab r with rfl | rfl
    · rw [ea] at e; simp at e
    · rw [eb] at e; simp only [Option.some.injEq] at e; exact ⟨rfl, e.symm⟩
  rcases h m' s' hs' with hd | ⟨l, s'', hst⟩
  · have := hd b; rw [eb] at this; simp at this
  · cases hst with
    | comp _ r f e => have := (nx _ _ e).2; simp at this
    | buffer _ r d src tag pay store e hs => have := (nx _ _ e).2; simp at this
    | recv _ r o dst tag pay store m l e hr hm => have := (nx _ _ e).2; simp at this
    | pass _ x y src dst tag pay pay' store store' hx hy _ _ _ => have := (nx _ _ hx).2; simp at this
    | finish _ r dst src tag pay store e hs hr => have := (nx _ _ e).2; simp at this
    | coll _ kind f e => exact hba (nx a _ (e a)).1.symm

end Nubhlight.MainLoop
