import Verif.Model.Messages

set_option autoImplicit false

/-!
# Ranks that decide what to do next

In `Messages` the instructions of a rank are given beforehand. Here a rank finds its next instruction from its memory, so that programs with
branches, loops and `exit` can be run by ranks at their own pace. Sending, receiving and collective operations are those of `Messages`.
-/

namespace Nubhlight.Control

open Messages

variable {R σ τ M : Type*}

section run
variable [DecidableEq R]

/-- What can happen next (`Messages.Step` with the instruction found from memory). -/
inductive Step (next : R → σ → Option (Instr R σ M)) : Bool → St R σ M → St R σ M → Prop
  | comp (s : St R σ M) (r : R) (f : σ → σ) (h : next r (s.loc r) = some (.comp f)) : Step next false s (s.leave r (f (s.loc r)))
  | buffer (s : St R σ M) (r d : R) (src : Option R) (tag : ℕ) (pay : σ → M) (store : σ → Option M → σ)
      (h : next r (s.loc r) = some (.xchg (some d) src tag pay store)) (hs : s.snd r = false) :
      Step next true s { s with snd := Function.update s.snd r true,
                                chan := fun a b t => if a = r ∧ b = d ∧ t = tag then s.chan a b t ++ [pay (s.loc r)] else s.chan a b t }
  | recv (s : St R σ M) (r o : R) (dst : Option R) (tag : ℕ) (pay : σ → M) (store : σ → Option M → σ) (m : M) (l : List M)
      (h : next r (s.loc r) = some (.xchg dst (some o) tag pay store)) (hr : s.rcv r = false) (hm : s.chan o r tag = m :: l) :
      Step next false s { s with rcv := Function.update s.rcv r true, box := Function.update s.box r (some m),
                                 chan := fun a b t => if a = o ∧ b = r ∧ t = tag then l else s.chan a b t }
  | pass (s : St R σ M) (a b : R) (src dst : Option R) (tag : ℕ) (pay pay' : σ → M) (store store' : σ → Option M → σ)
      (ha : next a (s.loc a) = some (.xchg (some b) src tag pay store)) (hb : next b (s.loc b) = some (.xchg dst (some a) tag pay' store'))
      (hs : s.snd a = false) (hr : s.rcv b = false) (hc : s.chan a b tag = []) :
      Step next false s { s with snd := Function.update s.snd a true, rcv := Function.update s.rcv b true,
                                 box := Function.update s.box b (some (pay (s.loc a))) }
  | finish (s : St R σ M) (r : R) (dst src : Option R) (tag : ℕ) (pay : σ → M) (store : σ → Option M → σ)
      (h : next r (s.loc r) = some (.xchg dst src tag pay store)) (hs : dst = none ∨ s.snd r = true) (hr : src = none ∨ s.rcv r = true) :
      Step next false s (s.leave r (store (s.loc r) (s.box r)))
  | coll (s : St R σ M) (kind : ℕ) (f : R → (R → σ) → σ) (h : ∀ r, next r (s.loc r) = some (.coll kind (f r))) :
      Step next false s { s with pc := fun r => s.pc r + 1, loc := fun r => f r s.loc }

/-- States that can come about, with the number of events so far. -/
inductive Sched (next : R → σ → Option (Instr R σ M)) (W : R → σ) : ℕ → St R σ M → Prop
  | start : Sched next W 0 (start W)
  | step (n : ℕ) (b : Bool) (s s' : St R σ M) (h : Sched next W n s) (hs : Step next b s s') : Sched next W (n + 1) s'

/-- All ranks are through. -/
def Done (next : R → σ → Option (Instr R σ M)) (s : St R σ M) : Prop := ∀ r, next r (s.loc r) = none

end run

/-! ## Programs with branches -/

/-- A statement of the program, which is the same for all ranks: an instruction; `if`; `while`; leaving the program if a condition holds. `own` says that
the condition is about the rank's own zones or number, so that ranks may decide differently; it does not affect what is done. -/
inductive Stmt (R τ M : Type*) where
  | instr (I : R → Instr R τ M)
  | ite (own : Bool) (c : R → τ → Bool) (a b : List (Stmt R τ M))
  | loop (c : R → τ → Bool) (body : List (Stmt R τ M))
  | exit (own : Bool) (c : R → τ → Bool)

/-- Code. -/
abbrev Code (R τ M : Type*) := List (Stmt R τ M)

/-- An instruction followed by `k`. The memory of a rank is its data and what it still has to do. -/
def along (k : Code R τ M) : Instr R τ M → Instr R (τ × Code R τ M) M
  | .comp f => .comp fun x => (f x.1, k)
  | .xchg dst src tag pay store => .xchg dst src tag (fun x => pay x.1) fun x m => (store x.1 m, k)
  | .coll kind f => .coll kind fun W => (f fun o => (W o).1, k)

/-- The next instruction of a rank. -/
def fetch (r : R) (x : τ × Code R τ M) : Option (Instr R (τ × Code R τ M) M) :=
  match x.2 with
  | [] => none
  | .instr I :: k => some (along k (I r))
  | .ite _ c a b :: k => some (.comp fun y => (y.1, if c r y.1 then a ++ k else b ++ k))
  | .loop c body :: k => some (.comp fun y => (y.1, if c r y.1 then body ++ .loop c body :: k else k))
  | .exit _ c :: k => some (.comp fun y => (y.1, if c r y.1 then [] else k))

/-- All ranks before the first statement. -/
def begin_ (code : Code R τ M) (W : R → τ) : R → τ × Code R τ M := fun r => (W r, code)

/-- Instructions as statements. -/
def straight (L : List (R → Instr R τ M)) : Code R τ M := L.map .instr

end Nubhlight.Control
