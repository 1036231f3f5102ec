import Verif.Model.MessageRun
import Verif.Props.Messages
import Verif.Props.FluidStep

set_option autoImplicit false
set_option linter.unusedSectionVars false

/-! # C132: fluid runs by messages are those of all ranks at once -/

namespace Nubhlight.Messages

open Bounds FluidStep

/-! ## Programs on part of the memory -/

section lens
variable {R σ M τ : Type*} [DecidableEq R]

theorem exec_lift (get : τ → σ) (set : τ → σ → τ) (h : ∀ x z, get (set x z) = z) (I : R → Instr R σ M) (V : R → τ) (r : R) :
    get (exec (fun r => lift get set r (I r)) V r) = exec I (fun r => get (V r)) r := by
  unfold exec
  cases e : I r with
  | comp f => simp only [lift, e, h]
  | coll k f => simp only [lift, e, h]
  | xchg d s t p st =>
    simp only [lift, e, h]
    congr 1
    congr 1
    funext o
    cases I o <;> rfl

theorem exec_lift_other {α : Type*} (get : τ → σ) (set : τ → σ → τ) (q : τ → α) (h : ∀ x z, q (set x z) = q x) (I : R → Instr R σ M) (V : R → τ) (r : R) :
    q (exec (fun r => lift get set r (I r)) V r) = q (V r) := by
  unfold exec
  cases e : I r with
  | comp f => simp only [lift, e, h]
  | coll k f => simp only [lift, e, h]
  | xchg d s t p st => simp only [lift, e, h]

theorem fold_lift (get : τ → σ) (set : τ → σ → τ) (h : ∀ x z, get (set x z) = z) (L : List (R → Instr R σ M)) (V : R → τ) :
    (fun r => get ((L.map fun I r => lift get set r (I r)).foldl (fun V I => exec I V) V r)) = L.foldl (fun V I => exec I V) (fun r => get (V r)) := by
  induction L generalizing V with
  | nil => rfl
  | cons I L ih =>
    simp only [List.map_cons, List.foldl_cons]
    rw [ih]
    congr 1
    funext r
    exact exec_lift get set h I V r

theorem fold_lift_other {α : Type*} (get : τ → σ) (set : τ → σ → τ) (q : τ → α) (h : ∀ x z, q (set x z) = q x) (L : List (R → Instr R σ M)) (V : R → τ) (r : R) :
    q ((L.map fun I r => lift get set r (I r)).foldl (fun V I => exec I V) V r) = q (V r) := by
  induction L generalizing V with
  | nil => rfl
  | cons I L ih =>
    simp only [List.map_cons, List.foldl_cons]
    rw [ih, exec_lift_other get set q h]

/-- Memory of the ranks after a call of `advance` and the floors after it, run in step. -/
def upToRepair (w : Stage R τ) (V : R → τ) : R → τ :=
  let V1 := fun r => w.flux r (w.copy r (V r))
  let V2 := fun r => w.red 0 r V1
  let V3 := fun r => w.red 1 r V2
  let V4 := fun r => w.red 2 r V3
  fun r => w.floors r (w.update r (w.diag r (w.ct r (V4 r))))

/-- Memory of the ranks after the repair too, run in step. -/
def stageEnd (w : Stage R τ) (b : Bool) (V : R → τ) : R → τ := fun r =>
  if b then w.floors r (w.repair r (upToRepair w V r)) else w.repair r (upToRepair w V r)

/-- `stageProg` by instruction. -/
def stageL (w : Stage R τ) (b : Bool) : List (R → Instr R τ M) :=
  [fun r => .comp (w.copy r), barrier, fun r => .comp (w.flux r), fun r => .coll 1 (w.red 0 r), fun r => .coll 1 (w.red 1 r), fun r => .coll 1 (w.red 2 r),
    fun r => .comp (w.ct r), barrier, barrier, fun r => .comp (w.diag r), barrier, barrier, fun r => .comp (w.update r), barrier,
    barrier, fun r => .comp (w.floors r), barrier, barrier, fun r => .comp (w.repair r)]
    ++ (if b then [barrier, fun r => .comp (w.floors r), barrier] else []) ++ [barrier]

theorem stage_common (w : Stage R τ) (b : Bool) (h : ∀ r, w.again r = b) : stageProg (M := M) w = common (stageL w b) := by
  funext r
  unfold stageProg repairProg stageL
  rw [h r]
  cases b <;> rfl

theorem stage_fold (w : Stage R τ) (b : Bool) (V : R → τ) : (stageL (M := M) w b).foldl (fun V I => exec I V) V = stageEnd w b V := by
  cases b <;> rfl

end lens

/-! ## One rank and all ranks -/

variable {K : Type*} [Field K] [LinearOrder K] [IsStrictOrderedRing K]

theorem fixup_local (S : Setup K) (W : World (Cell K)) (r : RanksOf S) : onRank (fixup S) r (W r.1 r.2.1 r.2.2) = fixup S W r.1 r.2.1 r.2.2 := rfl

theorem inflow_local (S : Setup K) (W : World (Cell K)) (r : RanksOf S) : onRank (inflowPass S) r (W r.1 r.2.1 r.2.2) = inflowPass S W r.1 r.2.1 r.2.2 := rfl

theorem loop_local (S : Setup K) (W : World (Cell K)) (r : RanksOf S) : onRank (repairLoop S) r (W r.1 r.2.1 r.2.2) = repairLoop S W r.1 r.2.1 r.2.2 := rfl

theorem repair_split (S : Setup K) (W : World (Cell K)) (c1 c2 c3 : ℤ) :
    repair S W c1 c2 c3 = if gives S W c1 c2 c3 then fixup S (repairLoop S W) c1 c2 c3 else repairLoop S W c1 c2 c3 := by
  funext i j k
  have e : repair S W c1 c2 c3 i j k = match repairOut S W c1 c2 c3 with
    | none => W c1 c2 c3 i j k
    | some (g, again) =>
      let W' : World (Cell K) := fun c1 c2 c3 i j k =>
        ⟨fun q => if h : q.val < 5 then g.P (i, j, k) ⟨q.val, h⟩ else (W c1 c2 c3 i j k).prim q, if g.good (i, j, k) then 1 else 0⟩
      if again then fixup S W' c1 c2 c3 i j k else W' c1 c2 c3 i j k := rfl
  rw [e]
  unfold gives
  cases h : repairOut S W c1 c2 c3 with
  | none => simp [repairLoop, h]
  | some x =>
    obtain ⟨g, again⟩ := x
    simp only [Option.map_some, Option.getD_some]
    cases again <;> simp [repairLoop, h, fixup]

/-- Values on ranks as values on all coordinates. -/
def spread {S : Setup K} {α : Type*} (d : α) (f : RanksOf S → α) : ℤ → ℤ → ℤ → α := fun c1 c2 c3 =>
  if h : (0 ≤ c1 ∧ c1 < S.cfg.d1.C) ∧ (0 ≤ c2 ∧ c2 < S.cfg.d2.C) ∧ (0 ≤ c3 ∧ c3 < S.cfg.d3.C) then
    f (⟨c1.toNat, by omega⟩, ⟨c2.toNat, by omega⟩, ⟨c3.toNat, by omega⟩) else d

theorem spread_at {S : Setup K} {α : Type*} (d : α) (f : RanksOf S → α) (r : RanksOf S) : spread d f r.1 r.2.1 r.2.2 = f r := by
  obtain ⟨⟨a, ha⟩, ⟨b, hb⟩, ⟨c, hc⟩⟩ := r
  unfold spread
  rw [dif_pos (by simp only; omega)]
  simp

theorem ranks_list {α : Type*} (C : ℤ) (hC : 0 ≤ C) (f : ℤ → List α) : (ints 0 (C - 1)).flatMap f = (List.finRange C.toNat).flatMap fun a => f (a.val : ℤ) := by
  unfold ints
  rw [List.flatMap_map, show (C - 1 - 0 + 1).toNat = C.toNat by omega]
  rw [← List.map_coe_finRange_eq_range, List.flatMap_map]
  simp

theorem ranks_map {α : Type*} (C : ℤ) (hC : 0 ≤ C) (f : ℤ → α) : (ints 0 (C - 1)).map f = (List.finRange C.toNat).map fun a => f (a.val : ℤ) := by
  unfold ints
  rw [List.map_map, show (C - 1 - 0 + 1).toNat = C.toNat by omega]
  rw [← List.map_coe_finRange_eq_range, List.map_map]
  simp [Function.comp_def]

theorem cmax_ranks (S : Setup K) (hS : S.WF) (W : World (Cell K)) (d : Fin 3) :
    cmax S W d = maxL ((allRanks S.cfg.d1 S.cfg.d2 S.cfg.d3).map fun o => maxL (rankSpeeds S.sol S.dims (startOf S o) (local_ W o.1 o.2.1 o.2.2) d)) := by
  have h1 : 0 ≤ S.cfg.d1.C := by have := hS.1.C_pos; omega
  have h2 : 0 ≤ S.cfg.d2.C := by have := hS.2.1.C_pos; omega
  have h3 : 0 ≤ S.cfg.d3.C := by have := hS.2.2.C_pos; omega
  unfold cmax allRanks
  congr 1
  rw [ranks_list _ h1, List.map_flatMap]
  congr 1
  funext a
  rw [ranks_list _ h2, List.map_flatMap]
  congr 1
  funext b
  rw [ranks_map _ h3, List.map_map]
  rfl

theorem reduced (S : Setup K) (V : RanksOf S → RankMem K) (r : RanksOf S) :
    maxSpeed S 2 r (fun r => maxSpeed S 1 r fun r => maxSpeed S 0 r V) =
      { V r with cm := fun d => maxL ((allRanks S.cfg.d1 S.cfg.d2 S.cfg.d3).map fun o => (V o).cm d) } := by
  unfold maxSpeed
  simp only [RankMem.mk.injEq, true_and, and_true]
  funext d
  fin_cases d <;> simp [Function.update]

/-- What memory holds before a call of `advance`. -/
def staleOf {S : Setup K} (V : RanksOf S → RankMem K) (e : RanksOf S → FluxCT.Emf K) : ℤ → ℤ → ℤ → Stale K := spread blank fun r => ⟨(V r).F, e r⟩

/-- The half-step array. -/
def halfOf {S : Setup K} (V : RanksOf S → RankMem K) : World (Cell K) := spread (fun _ _ _ => ⟨fun _ => 0, 0⟩) fun r i j k => ⟨(V r).H i j k, 0⟩

section stages
variable (S : Setup K) (hS : S.WF)

theorem prim_eq {V : RanksOf S → RankMem K} {W : World (Cell K)} (h : Same (fun r => arrays.getP (V r)) W) (r : RanksOf S) :
    (V r).P = fun i j k => (W r.1 r.2.1 r.2.2 i j k).prim := by
  funext i j k
  exact congrArg Cell.prim (h r i j k)

theorem flag_eq {V : RanksOf S → RankMem K} {W : World (Cell K)} (h : Same (fun r => arrays.getP (V r)) W) (r : RanksOf S) :
    (V r).fl = fun i j k => (W r.1 r.2.1 r.2.2 i j k).pflag := by
  funext i j k
  exact congrArg Cell.pflag (h r i j k)

/-- An active zone after `advance` is what its rank makes of it. -/
theorem advance_zone (st : ℤ → ℤ → ℤ → Stale K) (e : RanksOf S → FluxCT.Emf K) (Dt : K) (Wi Wb Wf : World (Cell K)) (get : RankMem K → ℤ → ℤ → ℤ → Prim K)
    (r : RanksOf S) (x : RankMem K) (hst : st r.1 r.2.1 r.2.2 = ⟨x.F, e r⟩) (hb : get x = fun i j k => (Wb r.1 r.2.1 r.2.2 i j k).prim) (i j k : ℤ) (ha : isAct S i j k) :
    advance S st Dt Wi Wb Wf r.1 r.2.1 r.2.2 i j k = zoneNew S r Dt (fun i j k => (Wi r.1 r.2.1 r.2.2 i j k).prim) (get x)
      (transport S e r (fluxPart S get r x)).F (Wi r.1 r.2.1 r.2.2 i j k).prim i j k := by
  unfold advance
  rw [if_pos (show _ ∧ _ ∧ _ from ha), hst]
  unfold rankAdvance zoneNew transport fluxPart
  simp only [hb]
  have : local_ Wi r.1 r.2.1 r.2.2 (i - NG) (j - NG) (k - NG) = (Wi r.1 r.2.1 r.2.2 i j k).prim := by
    unfold local_; simp only [sub_add_cancel]
  rw [this]
  rfl

include hS in
theorem predictor_floors (e : RanksOf S → FluxCT.Emf K) (again : RanksOf S → Bool) (V : RanksOf S → RankMem K) (W : World (Cell K)) (dt : K)
    (h : Same (fun r => arrays.getP (V r)) W) (hdt : ∀ r, (V r).dt = dt) (r : RanksOf S) :
    ∃ F, upToRepair (predictor S e again) V r =
      let Z := fixup S (advance S (staleOf V e) ((1/2) * dt) W W (flagged (halfOf V) W)) r.1 r.2.1 r.2.2
      ⟨(V r).P, fun i j k => (Z i j k).prim, fun i j k => (Z i j k).pflag, F, fun d => cmax S W d, dt, (V r).t⟩ := by
  refine ⟨(transport S e r (fluxPart S (fun x => x.P) r (V r))).F, ?_⟩
  have e1 : upToRepair (predictor S e again) V r = (predictor S e again).floors r ((predictor S e again).update r (transport S e r
      (maxSpeed S 2 r fun r => maxSpeed S 1 r fun r => maxSpeed S 0 r fun r => fluxPart S (fun x => x.P) r ((predictor S e again).copy r (V r))))) := rfl
  rw [e1, reduced]
  have e2 : (fun d => maxL ((allRanks S.cfg.d1 S.cfg.d2 S.cfg.d3).map fun o => (fluxPart S (fun x => x.P) o ((predictor S e again).copy o (V o))).cm d)) = fun d => cmax S W d := by
    funext d
    rw [cmax_ranks S hS]
    congr 2
    funext o
    show maxL (rankSpeeds S.sol S.dims (startOf S o) (fromFirst (V o).P) d) = _
    rw [prim_eq S h o]
    rfl
  rw [e2]
  simp only [predictor, arrays, transport, fluxPart, RankMem.mk.injEq, true_and, and_true]
  have hz : ∀ i j k, onRank (fixup S) r (fun i j k => ⟨if isAct S i j k then (zoneNew S r (1 / 2 * (V r).dt) (V r).P (V r).P
      (transport S e r (fluxPart S (fun x => x.P) r (V r))).F (if isAct S i j k then (V r).P i j k else (V r).H i j k) i j k).prim else if isAct S i j k then (V r).P i j k else (V r).H i j k,
      if isAct S i j k then (zoneNew S r (1 / 2 * (V r).dt) (V r).P (V r).P
      (transport S e r (fluxPart S (fun x => x.P) r (V r))).F (if isAct S i j k then (V r).P i j k else (V r).H i j k) i j k).pflag else (V r).fl i j k⟩) i j k =
      fixup S (advance S (staleOf V e) ((1/2) * dt) W W (flagged (halfOf V) W)) r.1 r.2.1 r.2.2 i j k := by
    intro i j k
    have hf : fixup S (advance S (staleOf V e) ((1/2) * dt) W W (flagged (halfOf V) W)) r.1 r.2.1 r.2.2 i j k =
        onRank (fixup S) r (advance S (staleOf V e) ((1/2) * dt) W W (flagged (halfOf V) W) r.1 r.2.1 r.2.2) i j k := rfl
    rw [hf]
    congr 1
    funext i j k
    by_cases ha : isAct S i j k
    · simp only [if_pos ha]
      rw [advance_zone S (staleOf V e) e _ W W _ (fun x => x.P) r (V r) (spread_at _ _ r) (prim_eq S h r) i j k ha, hdt r]
      simp only [prim_eq S h r]
    · simp only [if_neg ha]
      have hn : advance S (staleOf V e) ((1/2) * dt) W W (flagged (halfOf V) W) r.1 r.2.1 r.2.2 i j k = flagged (halfOf V) W r.1 r.2.1 r.2.2 i j k := by
        unfold advance
        rw [if_neg (show ¬ (_ ∧ _ ∧ _) from ha)]
      rw [hn, flag_eq S h r]
      unfold flagged halfOf
      rw [spread_at]
  refine ⟨?_, ?_, hdt r⟩
  · funext i j k
    exact congrArg Cell.prim (hz i j k)
  · funext i j k
    exact congrArg Cell.pflag (hz i j k)

theorem half_eq {V : RanksOf S → RankMem K} {W : World (Cell K)} (h : Same (fun r => arrays.getH (V r)) W) (r : RanksOf S) :
    (V r).H = fun i j k => (W r.1 r.2.1 r.2.2 i j k).prim := by
  funext i j k
  exact congrArg Cell.prim (h r i j k)

theorem hflag_eq {V : RanksOf S → RankMem K} {W : World (Cell K)} (h : Same (fun r => arrays.getH (V r)) W) (r : RanksOf S) :
    (V r).fl = fun i j k => (W r.1 r.2.1 r.2.2 i j k).pflag := by
  funext i j k
  exact congrArg Cell.pflag (h r i j k)

include hS in
theorem corrector_floors (e : RanksOf S → FluxCT.Emf K) (again : RanksOf S → Bool) (V : RanksOf S → RankMem K) (W Wh : World (Cell K)) (dt : K)
    (hp : ∀ r, (V r).P = fun i j k => (W r.1 r.2.1 r.2.2 i j k).prim) (h : Same (fun r => arrays.getH (V r)) Wh) (hdt : ∀ r, (V r).dt = dt) (r : RanksOf S) :
    ∃ F, upToRepair (corrector S e again) V r =
      let Z := fixup S (advance S (staleOf V e) dt W Wh (flagged W Wh)) r.1 r.2.1 r.2.2
      ⟨fun i j k => (Z i j k).prim, (V r).H, fun i j k => (Z i j k).pflag, F, fun d => cmax S Wh d, dt, (V r).t⟩ := by
  refine ⟨(transport S e r (fluxPart S (fun x => x.H) r (V r))).F, ?_⟩
  have e1 : upToRepair (corrector S e again) V r = (corrector S e again).floors r ((corrector S e again).update r (transport S e r
      (maxSpeed S 2 r fun r => maxSpeed S 1 r fun r => maxSpeed S 0 r fun r => fluxPart S (fun x => x.H) r ((corrector S e again).copy r (V r))))) := rfl
  rw [e1, reduced]
  have e2 : (fun d => maxL ((allRanks S.cfg.d1 S.cfg.d2 S.cfg.d3).map fun o => (fluxPart S (fun x => x.H) o ((corrector S e again).copy o (V o))).cm d)) = fun d => cmax S Wh d := by
    funext d
    rw [cmax_ranks S hS]
    congr 2
    funext o
    show maxL (rankSpeeds S.sol S.dims (startOf S o) (fromFirst (V o).H) d) = _
    rw [half_eq S h o]
    rfl
  rw [e2]
  simp only [corrector, arrays, transport, fluxPart, RankMem.mk.injEq, true_and, and_true]
  have hz : ∀ i j k, onRank (fixup S) r (fun i j k => ⟨if isAct S i j k then (zoneNew S r (V r).dt (V r).P (V r).H
      (transport S e r (fluxPart S (fun x => x.H) r (V r))).F ((V r).P i j k) i j k).prim else (V r).P i j k,
      if isAct S i j k then (zoneNew S r (V r).dt (V r).P (V r).H
      (transport S e r (fluxPart S (fun x => x.H) r (V r))).F ((V r).P i j k) i j k).pflag else (V r).fl i j k⟩) i j k =
      fixup S (advance S (staleOf V e) dt W Wh (flagged W Wh)) r.1 r.2.1 r.2.2 i j k := by
    intro i j k
    have hf : fixup S (advance S (staleOf V e) dt W Wh (flagged W Wh)) r.1 r.2.1 r.2.2 i j k =
        onRank (fixup S) r (advance S (staleOf V e) dt W Wh (flagged W Wh) r.1 r.2.1 r.2.2) i j k := rfl
    rw [hf]
    congr 1
    funext i j k
    by_cases ha : isAct S i j k
    · simp only [if_pos ha]
      rw [advance_zone S (staleOf V e) e _ W Wh _ (fun x => x.H) r (V r) (spread_at _ _ r) (half_eq S h r) i j k ha, hdt r]
      simp only [hp r]
    · simp only [if_neg ha]
      have hn : advance S (staleOf V e) dt W Wh (flagged W Wh) r.1 r.2.1 r.2.2 i j k = flagged W Wh r.1 r.2.1 r.2.2 i j k := by
        unfold advance
        rw [if_neg (show ¬ (_ ∧ _ ∧ _) from ha)]
      rw [hn, hflag_eq S h r, hp r]
      rfl
  refine ⟨?_, ?_, hdt r⟩
  · funext i j k
    exact congrArg Cell.prim (hz i j k)
  · funext i j k
    exact congrArg Cell.pflag (hz i j k)

include hS in
theorem predictor_end (e : RanksOf S → FluxCT.Emf K) (again : RanksOf S → Bool) (V : RanksOf S → RankMem K) (W : World (Cell K)) (dt : K) (b : Bool)
    (h : Same (fun r => arrays.getP (V r)) W) (hdt : ∀ r, (V r).dt = dt) (r : RanksOf S)
    (hb : gives S (fun _ _ _ => arrays.getH (upToRepair (predictor S e again) V r)) r.1 r.2.1 r.2.2 = b) :
    ∃ F, stageEnd (predictor S e again) b V r =
      let Z := repair S (fixup S (advance S (staleOf V e) ((1/2) * dt) W W (flagged (halfOf V) W))) r.1 r.2.1 r.2.2
      ⟨(V r).P, fun i j k => (Z i j k).prim, fun i j k => (Z i j k).pflag, F, fun d => cmax S W d, dt, (V r).t⟩ := by
  obtain ⟨F, hF⟩ := predictor_floors S hS e again V W dt h hdt r
  refine ⟨F, ?_⟩
  rw [hF] at hb
  have hb' : gives S (fixup S (advance S (staleOf V e) ((1/2) * dt) W W (flagged (halfOf V) W))) r.1 r.2.1 r.2.2 = b := hb
  unfold stageEnd
  rw [hF, repair_split, hb']
  cases b <;> rfl

include hS in
theorem corrector_end (e : RanksOf S → FluxCT.Emf K) (again : RanksOf S → Bool) (V : RanksOf S → RankMem K) (W Wh : World (Cell K)) (dt : K) (b : Bool)
    (hp : ∀ r, (V r).P = fun i j k => (W r.1 r.2.1 r.2.2 i j k).prim) (h : Same (fun r => arrays.getH (V r)) Wh) (hdt : ∀ r, (V r).dt = dt) (r : RanksOf S)
    (hb : gives S (fun _ _ _ => arrays.getP (upToRepair (corrector S e again) V r)) r.1 r.2.1 r.2.2 = b) :
    ∃ F, stageEnd (corrector S e again) b V r =
      let Z := repair S (fixup S (advance S (staleOf V e) dt W Wh (flagged W Wh))) r.1 r.2.1 r.2.2
      ⟨fun i j k => (Z i j k).prim, (V r).H, fun i j k => (Z i j k).pflag, F, fun d => cmax S Wh d, dt, (V r).t⟩ := by
  obtain ⟨F, hF⟩ := corrector_floors S hS e again V W Wh dt hp h hdt r
  refine ⟨F, ?_⟩
  rw [hF] at hb
  have hb' : gives S (fixup S (advance S (staleOf V e) dt W Wh (flagged W Wh))) r.1 r.2.1 r.2.2 = b := hb
  unfold stageEnd
  rw [hF, repair_split, hb']
  cases b <;> rfl

/-- `bound_prim` by instruction. -/
def bL (fill : Fin 3 → Bool → ℤ → ℤ → (ℤ → Cell K) → ℤ → Cell K) : List (RanksOf S → Instr (RanksOf S) (Zones K) (Zones K)) :=
  boundL (d1 := S.cfg.d1) (d2 := S.cfg.d2) (d3 := S.cfg.d3) fill (onRank (inflowPass S))

/-- The boundary update of `Ph` run in step. -/
theorem bound_half (fill : Fin 3 → Bool → ℤ → ℤ → (ℤ → Cell K) → ℤ → Cell K) (hf : fills S.cfg = some fill) (V : RanksOf S → RankMem K) (W : World (Cell K))
    (h : Same (fun r => arrays.getH (V r)) W) :
    ∃ W', bound S W = some W' ∧ ∀ V', V' = ((bL S fill).map fun I r => lift (arrays (K := K)).getH arrays.setH r (I r)).foldl (fun V I => exec I V) V →
      Same (fun r => arrays.getH (V' r)) W' ∧ ∀ r, (V' r).P = (V r).P ∧ (V' r).cm = (V r).cm ∧ (V' r).dt = (V r).dt ∧ (V' r).t = (V r).t := by
  obtain ⟨W', e1, e2⟩ := bound_fold S.cfg fill hf (onRank (inflowPass S)) _ W h
  change (bL S fill).foldl (fun V I => exec I V) _ = _ at e2
  generalize bL S fill = L at e2 ⊢
  refine ⟨inflowPass S W', by unfold bound; rw [e1]; rfl, ?_⟩
  intro V' hV'
  constructor
  · have h0 : (fun r => (arrays (K := K)).getH (V' r)) = fun r : RanksOf S => onRank (inflowPass S) r (W' r.1 r.2.1 r.2.2) := by
      rw [hV']
      exact (fold_lift (arrays (K := K)).getH arrays.setH (fun _ _ => rfl) L V).trans e2
    clear hV'
    rw [h0]
    intro r i j k
    rfl
  · intro r
    rw [hV']
    have := fold_lift_other (arrays (K := K)).getH arrays.setH (fun x => (x.P, x.cm, x.dt, x.t)) (fun _ _ => rfl) L V r
    simp only [Prod.mk.injEq] at this
    exact this

/-- The boundary update of `P` run in step. -/
theorem bound_full (fill : Fin 3 → Bool → ℤ → ℤ → (ℤ → Cell K) → ℤ → Cell K) (hf : fills S.cfg = some fill) (V : RanksOf S → RankMem K) (W : World (Cell K))
    (h : Same (fun r => arrays.getP (V r)) W) :
    ∃ W', bound S W = some W' ∧ ∀ V', V' = ((bL S fill).map fun I r => lift (arrays (K := K)).getP arrays.setP r (I r)).foldl (fun V I => exec I V) V →
      Same (fun r => arrays.getP (V' r)) W' ∧ ∀ r, (V' r).cm = (V r).cm ∧ (V' r).dt = (V r).dt ∧ (V' r).t = (V r).t := by
  obtain ⟨W', e1, e2⟩ := bound_fold S.cfg fill hf (onRank (inflowPass S)) _ W h
  change (bL S fill).foldl (fun V I => exec I V) _ = _ at e2
  generalize bL S fill = L at e2 ⊢
  refine ⟨inflowPass S W', by unfold bound; rw [e1]; rfl, ?_⟩
  intro V' hV'
  constructor
  · have h0 : (fun r => (arrays (K := K)).getP (V' r)) = fun r : RanksOf S => onRank (inflowPass S) r (W' r.1 r.2.1 r.2.2) := by
      rw [hV']
      exact (fold_lift (arrays (K := K)).getP arrays.setP (fun _ _ => rfl) L V).trans e2
    clear hV'
    rw [h0]
    intro r i j k
    rfl
  · intro r
    rw [hV']
    have := fold_lift_other (arrays (K := K)).getP arrays.setP (fun x => (x.cm, x.dt, x.t)) (fun _ _ => rfl) L V r
    simp only [Prod.mk.injEq] at this
    exact this

/-! ## Steps and runs -/

/-- Ranks hold a state of all ranks at once. -/
def Mirrors (V : RanksOf S → RankMem K) (s : State K) : Prop :=
  ∀ r, (∀ i j k, (V r).P i j k = (s.W r.1 r.2.1 r.2.2 i j k).prim ∧ (V r).fl i j k = (s.W r.1 r.2.1 r.2.2 i j k).pflag) ∧ (V r).dt = s.dt ∧ (V r).t = s.t

/-- Memory after the predictor with its boundary update, run in step. -/
def afterHalf (fill : Fin 3 → Bool → ℤ → ℤ → (ℤ → Cell K) → ℤ → Cell K) (D : StepData S) (V : RanksOf S → RankMem K) : RanksOf S → RankMem K :=
  ((bL S fill).map fun I r => lift (arrays (K := K)).getH arrays.setH r (I r)).foldl (fun V I => exec I V) (stageEnd (fluidStep S D).one D.again1 V)

/-- Memory after the corrector with its boundary update, run in step. -/
def afterFull (fill : Fin 3 → Bool → ℤ → ℤ → (ℤ → Cell K) → ℤ → Cell K) (D : StepData S) (V : RanksOf S → RankMem K) : RanksOf S → RankMem K :=
  ((bL S fill).map fun I r => lift (arrays (K := K)).getP arrays.setP r (I r)).foldl (fun V I => exec I V) (stageEnd (fluidStep S D).two D.again2 (afterHalf S fill D V))

/-- Memory after a step, run in step. -/
def afterStep (fill : Fin 3 → Bool → ℤ → ℤ → (ℤ → Cell K) → ℤ → Cell K) (D : StepData S) (V : RanksOf S → RankMem K) : RanksOf S → RankMem K :=
  fun r => (fluidStep S D).least r fun r => (fluidStep S D).rest r (afterFull S fill D V r)

/-- Memory after core/main.c:332-333, run in step. -/
def afterInit (fill : Fin 3 → Bool → ℤ → ℤ → (ℤ → Cell K) → ℤ → Cell K) (V : RanksOf S → RankMem K) : RanksOf S → RankMem K :=
  ((bL S fill).map fun I r => lift (arrays (K := K)).getP arrays.setP r (I r)).foldl (fun V I => exec I V)
    fun r => arrays.setP (V r) (onRank (fixup S) r (arrays.getP (V r)))

/-- In each repair every rank finds what its program has: it calls `fixup` again exactly if it gave up all its zones. -/
def Obeys (fill : Fin 3 → Bool → ℤ → ℤ → (ℤ → Cell K) → ℤ → Cell K) : List (StepData S) → (RanksOf S → RankMem K) → Prop
  | [], _ => True
  | D :: Ds, V =>
    (∀ r, gives S (fun _ _ _ => arrays.getH (upToRepair (fluidStep S D).one V r)) r.1 r.2.1 r.2.2 = D.again1) ∧
    (∀ r, gives S (fun _ _ _ => arrays.getP (upToRepair (fluidStep S D).two (afterHalf S fill D V) r)) r.1 r.2.1 r.2.2 = D.again2) ∧
    Obeys fill Ds (afterStep S fill D V)

theorem fold_min (a : K) (n : List K) (h : ∀ x ∈ n, x = a) : n.foldl min a = a := by
  induction n with
  | nil => rfl
  | cons x n ih =>
    rw [List.foldl_cons, h x (by simp), min_self]
    exact ih fun y hy => h y (by simp [hy])

include hS in
theorem step_mirrors (fill : Fin 3 → Bool → ℤ → ℤ → (ℤ → Cell K) → ℤ → Cell K) (hf : fills S.cfg = some fill) (D : StepData S) (V : RanksOf S → RankMem K) (s : State K)
    (h : Mirrors S V s)
    (h1 : ∀ r, gives S (fun _ _ _ => arrays.getH (upToRepair (fluidStep S D).one V r)) r.1 r.2.1 r.2.2 = D.again1)
    (h2 : ∀ r, gives S (fun _ _ _ => arrays.getP (upToRepair (fluidStep S D).two (afterHalf S fill D V) r)) r.1 r.2.1 r.2.2 = D.again2) :
    ∃ s', step S ⟨staleOf V D.e1, staleOf (afterHalf S fill D V) D.e2, halfOf V⟩ s = some s' ∧ Mirrors S (afterStep S fill D V) s' := by
  have hW : Same (fun r => arrays.getP (V r)) s.W := by
    intro r i j k
    obtain ⟨a, b⟩ := (h r).1 i j k
    show (⟨(V r).P i j k, (V r).fl i j k⟩ : Cell K) = _
    rw [a, b]
  have hdt : ∀ r, (V r).dt = s.dt := fun r => (h r).2.1
  have hE := fun r => predictor_end S hS D.e1 (fun _ => D.again1) V s.W s.dt D.again1 hW hdt r (h1 r)
  obtain ⟨Wh, b1, b2⟩ := bound_half S fill hf (stageEnd (fluidStep S D).one D.again1 V)
    (repair S (fixup S (advance S (staleOf V D.e1) ((1/2) * s.dt) s.W s.W (flagged (halfOf V) s.W)))) (by
      intro r i j k
      obtain ⟨F, e⟩ := hE r
      show arrays.getH (stageEnd (predictor S D.e1 fun _ => D.again1) D.again1 V r) i j k = _
      rw [e]; rfl)
  obtain ⟨c1, c2⟩ := b2 (afterHalf S fill D V) rfl
  have hp : ∀ r, (afterHalf S fill D V r).P = fun i j k => (s.W r.1 r.2.1 r.2.2 i j k).prim := by
    intro r
    rw [(c2 r).1]
    obtain ⟨F, e⟩ := hE r
    show (stageEnd (predictor S D.e1 fun _ => D.again1) D.again1 V r).P = _
    rw [e]
    exact prim_eq S hW r
  have hdt' : ∀ r, (afterHalf S fill D V r).dt = s.dt := by
    intro r
    rw [(c2 r).2.2.1]
    obtain ⟨F, e⟩ := hE r
    show (stageEnd (predictor S D.e1 fun _ => D.again1) D.again1 V r).dt = _
    rw [e]
  have ht' : ∀ r, (afterHalf S fill D V r).t = s.t := by
    intro r
    rw [(c2 r).2.2.2]
    obtain ⟨F, e⟩ := hE r
    show (stageEnd (predictor S D.e1 fun _ => D.again1) D.again1 V r).t = _
    rw [e]
    exact (h r).2.2
  have hE' := fun r => corrector_end S hS D.e2 (fun _ => D.again2) (afterHalf S fill D V) s.W Wh s.dt D.again2 hp c1 hdt' r (h2 r)
  obtain ⟨W', d1, d2⟩ := bound_full S fill hf (stageEnd (fluidStep S D).two D.again2 (afterHalf S fill D V))
    (repair S (fixup S (advance S (staleOf (afterHalf S fill D V) D.e2) s.dt s.W Wh (flagged s.W Wh)))) (by
      intro r i j k
      obtain ⟨F, e⟩ := hE' r
      show arrays.getP (stageEnd (corrector S D.e2 fun _ => D.again2) D.again2 (afterHalf S fill D V) r) i j k = _
      rw [e]; rfl)
  obtain ⟨f1, f2⟩ := d2 (afterFull S fill D V) rfl
  refine ⟨⟨W', S.sol.next (cmax S Wh 0) (cmax S Wh 1) (cmax S Wh 2) s.dt (s.t + s.dt), s.t + s.dt⟩, ?_, ?_⟩
  · unfold step
    simp only [b1, Option.bind_some, d1, Option.map_some]
  · have cm : ∀ r, (afterFull S fill D V r).cm = fun d => cmax S Wh d := by
      intro r
      rw [(f2 r).1]
      obtain ⟨F, e⟩ := hE' r
      show (stageEnd (corrector S D.e2 fun _ => D.again2) D.again2 (afterHalf S fill D V) r).cm = _
      rw [e]
    have hd : ∀ r, (afterFull S fill D V r).dt = s.dt := by
      intro r
      rw [(f2 r).2.1]
      obtain ⟨F, e⟩ := hE' r
      show (stageEnd (corrector S D.e2 fun _ => D.again2) D.again2 (afterHalf S fill D V) r).dt = _
      rw [e]
    have hT : ∀ r, (afterFull S fill D V r).t = s.t := by
      intro r
      rw [(f2 r).2.2]
      obtain ⟨F, e⟩ := hE' r
      show (stageEnd (corrector S D.e2 fun _ => D.again2) D.again2 (afterHalf S fill D V) r).t = _
      rw [e]
      exact ht' r
    intro r
    refine ⟨fun i j k => ⟨?_, ?_⟩, ?_, ?_⟩
    · exact congrArg Cell.prim (f1 r i j k)
    · exact congrArg Cell.pflag (f1 r i j k)
    · have hr : ∀ o, ((fluidStep S D).rest o (afterFull S fill D V o)).dt = S.sol.next (cmax S Wh 0) (cmax S Wh 1) (cmax S Wh 2) s.dt (s.t + s.dt) := by
        intro o
        simp only [fluidStep, cm o, hd o, hT o]
      show ((allRanks S.cfg.d1 S.cfg.d2 S.cfg.d3).map fun o => ((fluidStep S D).rest o (afterFull S fill D V o)).dt).foldl min ((fluidStep S D).rest r (afterFull S fill D V r)).dt = _
      rw [hr r]
      apply fold_min
      intro x hx
      obtain ⟨o, -, rfl⟩ := List.mem_map.1 hx
      exact hr o
    · show (afterFull S fill D V r).t + (afterFull S fill D V r).dt = _
      rw [hd r, hT r]

/-- `stepProg` by instruction. -/
def stepL (fill : Fin 3 → Bool → ℤ → ℤ → (ℤ → Cell K) → ℤ → Cell K) (D : StepData S) : List (RanksOf S → Instr (RanksOf S) (RankMem K) (Zones K)) :=
  [fun r => .comp ((fluidStep S D).save r)] ++ stageL (fluidStep S D).one D.again1 ++ ((bL S fill).map fun I r => lift arrays.getH arrays.setH r (I r))
    ++ stageL (fluidStep S D).two D.again2 ++ ((bL S fill).map fun I r => lift arrays.getP arrays.setP r (I r))
    ++ [fun r => .comp ((fluidStep S D).rest r), fun r => .coll 2 ((fluidStep S D).least r), fun r => .comp ((fluidStep S D).last r)]

/-- `fluidRun` by instruction. -/
def runL (fill : Fin 3 → Bool → ℤ → ℤ → (ℤ → Cell K) → ℤ → Cell K) (Ds : List (StepData S)) : List (RanksOf S → Instr (RanksOf S) (RankMem K) (Zones K)) :=
  [barrier, fun r => .comp fun x => arrays.setP x (onRank (fixup S) r (arrays.getP x)), barrier]
    ++ ((bL S fill).map fun I r => lift arrays.getP arrays.setP r (I r)) ++ Ds.flatMap (stepL S fill)

theorem common_append {R σ M : Type*} (L L' : List (R → Instr R σ M)) (r : R) : common (L ++ L') r = common L r ++ common L' r := by
  unfold common; rw [List.map_append]

theorem common_lift {R σ M τ : Type*} (get : τ → σ) (set : τ → σ → τ) (L : List (R → Instr R σ M)) (r : R) :
    common (L.map fun I r => lift get set r (I r)) r = (common L r).map (lift get set r) := by
  unfold common; simp [Function.comp_def]

theorem step_common (fill : Fin 3 → Bool → ℤ → ℤ → (ℤ → Cell K) → ℤ → Cell K) (D : StepData S) (r : RanksOf S) :
    stepProg S.cfg.d1 S.cfg.d2 S.cfg.d3 fill (onRank (inflowPass S)) arrays (fluidStep S D) r = common (stepL S fill D) r := by
  unfold stepProg stepL
  simp only [common_append, common_lift]
  rw [← stage_common (fluidStep S D).one D.again1 (fun _ => rfl), ← stage_common (fluidStep S D).two D.again2 (fun _ => rfl)]
  unfold bL
  rw [← boundProg_common]
  rfl

theorem run_common (fill : Fin 3 → Bool → ℤ → ℤ → (ℤ → Cell K) → ℤ → Cell K) (Ds : List (StepData S)) : fluidRun S fill Ds = common (runL S fill Ds) := by
  funext r
  have e : ∀ Ds : List (StepData S), runProg S.cfg.d1 S.cfg.d2 S.cfg.d3 fill (onRank (inflowPass S)) arrays (Ds.map (fluidStep S)) r = common (Ds.flatMap (stepL S fill)) r := by
    intro Ds
    induction Ds with
    | nil => rfl
    | cons D Ds ih =>
      rw [List.flatMap_cons, common_append, ← ih, ← step_common]
      unfold runProg
      rw [List.map_cons, List.flatMap_cons]
  unfold fluidRun runL
  simp only [common_append, common_lift]
  rw [e]
  unfold bL
  rw [← boundProg_common]
  rfl

theorem step_fold (fill : Fin 3 → Bool → ℤ → ℤ → (ℤ → Cell K) → ℤ → Cell K) (D : StepData S) (V : RanksOf S → RankMem K) :
    (stepL S fill D).foldl (fun V I => exec I V) V = afterStep S fill D V := by
  unfold stepL afterStep afterFull afterHalf
  generalize bL S fill = L
  simp only [List.foldl_append, stage_fold]
  rfl

theorem run_fold (fill : Fin 3 → Bool → ℤ → ℤ → (ℤ → Cell K) → ℤ → Cell K) (Ds : List (StepData S)) (V : RanksOf S → RankMem K) :
    (runL S fill Ds).foldl (fun V I => exec I V) V = Ds.foldl (fun V D => afterStep S fill D V) (afterInit S fill V) := by
  have e : ∀ (Ds : List (StepData S)) (V : RanksOf S → RankMem K), (Ds.flatMap (stepL S fill)).foldl (fun V I => exec I V) V = Ds.foldl (fun V D => afterStep S fill D V) V := by
    intro Ds
    induction Ds with
    | nil => intro V; rfl
    | cons D Ds ih =>
      intro V
      rw [List.flatMap_cons, List.foldl_append, step_fold, ih]
      rfl
  unfold runL afterInit
  rw [List.foldl_append, e, List.foldl_append]
  generalize bL S fill = L
  rfl

theorem run_alike (fill : Fin 3 → Bool → ℤ → ℤ → (ℤ → Cell K) → ℤ → Cell K) (Ds : List (StepData S)) : Alike (fluidRun S fill Ds) := by
  refine .append (.append (alike_fixup _) (.lift _ _ (alike_bound fill _))) (alike_run fill _ _ _ ?_)
  intro w hw
  obtain ⟨D, -, rfl⟩ := List.mem_map.1 hw
  exact ⟨⟨D.again1, fun _ => rfl⟩, ⟨D.again2, fun _ => rfl⟩⟩

theorem run_matched (fill : Fin 3 → Bool → ℤ → ℤ → (ℤ → Cell K) → ℤ → Cell K) (Ds : List (StepData S)) : Matched (fluidRun S fill Ds) (runL S fill Ds).length := by
  obtain ⟨N, hN⟩ := (run_alike S fill Ds).matched
  by_cases hr : Nonempty (RanksOf S)
  · obtain ⟨r⟩ := hr
    have : (runL S fill Ds).length = N := by
      rw [← hN.len r, run_common]; simp [common]
    rw [this]; exact hN
  · refine ⟨fun r => absurd ⟨r⟩ hr, fun _ a => absurd ⟨a⟩ hr, fun _ a => absurd ⟨a⟩ hr, fun _ a => absurd ⟨a⟩ hr⟩

include hS in
theorem run_mirrors (fill : Fin 3 → Bool → ℤ → ℤ → (ℤ → Cell K) → ℤ → Cell K) (hf : fills S.cfg = some fill) (Ds : List (StepData S)) (V : RanksOf S → RankMem K) (s : State K)
    (h : Mirrors S V s) (ho : Obeys S fill Ds V) :
    ∃ (ms : List (Mem K)) (s' : State K), ms.length = Ds.length ∧ ms.foldlM (fun s m => step S m s) s = some s' ∧ Mirrors S (Ds.foldl (fun V D => afterStep S fill D V) V) s' := by
  induction Ds generalizing V s with
  | nil => exact ⟨[], s, rfl, rfl, h⟩
  | cons D Ds ih =>
    obtain ⟨o1, o2, o3⟩ := ho
    obtain ⟨s1, e1, h1⟩ := step_mirrors S hS fill hf D V s h o1 o2
    obtain ⟨ms, s', l, e, h'⟩ := ih _ s1 h1 o3
    refine ⟨⟨staleOf V D.e1, staleOf (afterHalf S fill D V) D.e2, halfOf V⟩ :: ms, s', by simp [l], ?_, h'⟩
    rw [List.foldlM_cons, e1]
    exact e

/-- Memory of the ranks at the start holds given variables, step and time. -/
def Loaded (V : RanksOf S → RankMem K) (W0 : World (Cell K)) (dt t : K) : Prop := Mirrors S V ⟨W0, dt, t⟩

include hS in
theorem init_mirrors (fill : Fin 3 → Bool → ℤ → ℤ → (ℤ → Cell K) → ℤ → Cell K) (hf : fills S.cfg = some fill) (V : RanksOf S → RankMem K) (W0 : World (Cell K)) (dt t : K)
    (h : Loaded S V W0 dt t) : ∃ W, bound S (fixup S W0) = some W ∧ Mirrors S (afterInit S fill V) ⟨W, dt, t⟩ := by
  have hW : ∀ r : RanksOf S, arrays.getP (V r) = W0 r.1 r.2.1 r.2.2 := by
    intro r
    funext i j k
    obtain ⟨a, b⟩ := (h r).1 i j k
    show (⟨(V r).P i j k, (V r).fl i j k⟩ : Cell K) = _
    rw [a, b]
  obtain ⟨W, b1, b2⟩ := bound_full S fill hf (fun r => arrays.setP (V r) (onRank (fixup S) r (arrays.getP (V r)))) (fixup S W0) (by
    intro r i j k
    show arrays.getP (arrays.setP (V r) (onRank (fixup S) r (arrays.getP (V r)))) i j k = _
    rw [hW r]
    rfl)
  obtain ⟨c1, c2⟩ := b2 (afterInit S fill V) rfl
  refine ⟨W, b1, fun r => ⟨fun i j k => ⟨congrArg Cell.prim (c1 r i j k), congrArg Cell.pflag (c1 r i j k)⟩, ?_, ?_⟩⟩
  · rw [(c2 r).2.1]; exact (h r).2.1
  · rw [(c2 r).2.2]; exact (h r).2.2

/-! ## Runs in which no recovery fails -/

include hS in
theorem gives_clean (W : World (Cell K)) (hW : Recovered S W) {c1 c2 c3 : ℤ} (hr : Rank S c1 c2 c3) : gives S W c1 c2 c3 = false := by
  have p1 := hS.1.N_pos
  have p2 := hS.2.1.N_pos
  have p3 := hS.2.2.N_pos
  have hNG : NG = 3 := rfl
  have hNG' : FixupUtoprim.NG = 3 := rfl
  unfold gives repairOut
  generalize hn : (⟨S.cfg.d1.N.toNat, S.cfg.d2.N.toNat, S.cfg.d3.N.toNat⟩ : FixupUtoprim.Sizes) = n
  have n1 : (n.N1 : ℤ) = S.cfg.d1.N := by rw [← hn]; simp; omega
  have n2 : (n.N2 : ℤ) = S.cfg.d2.N := by rw [← hn]; simp; omega
  have n3 : (n.N3 : ℤ) = S.cfg.d3.N := by rw [← hn]; simp; omega
  have hpos : 0 < n.N1 * n.N2 * n.N3 := by
    have : 0 < n.N1 := by omega
    have : 0 < n.N2 := by omega
    have : 0 < n.N3 := by omega
    positivity
  simp only
  generalize (fun (z : FixupUtoprim.Zone) (v : Fin 5 → K) (ip : Fin 5) =>
    S.sol.fix (glob S.cfg.d1 c1 z.1) (glob S.cfg.d2 c2 z.2.1) (glob S.cfg.d3 c3 z.2.2)
      (fun q => if h : q.val < 5 then v ⟨q.val, h⟩ else (W c1 c2 c3 z.1 z.2.1 z.2.2).prim q) (Fin.castLE (by norm_num) ip)) = fix
  set P : FixupUtoprim.Zone → Fin 5 → K := fun z ip => (W c1 c2 c3 z.1 z.2.1 z.2.2).prim (Fin.castLE (by norm_num) ip) with hP
  set pf : FixupUtoprim.Zone → ℤ := fun z => (W c1 c2 c3 z.1 z.2.1 z.2.2).pflag with hpf
  have good : ∀ z, FixupUtoprim.Active n z → FixupUtoprim.prepare n pf z = true := by
    intro z hz
    unfold FixupUtoprim.Active at hz
    have h0 : pf z = 0 := hW _ _ _ _ _ _ hr ⟨⟨by omega, by omega⟩, ⟨by omega, by omega⟩, ⟨by omega, by omega⟩⟩
    simp only [FixupUtoprim.prepare, h0, FixupUtoprim.corner, Bool.and_eq_true, decide_eq_true_eq, Bool.not_eq_true', Bool.and_eq_false_iff, Bool.or_eq_false_iff,
      decide_eq_false_iff_not]
    exact ⟨trivial, Or.inl (Or.inl ⟨by omega, by omega⟩)⟩
  set g : FixupUtoprim.Grid K := ⟨P, FixupUtoprim.prepare n pf⟩ with hg
  have fold : ∀ (L : List FixupUtoprim.Zone), (∀ z ∈ L, FixupUtoprim.Active n z) → ∀ a : FixupUtoprim.Acc K,
      L.foldl (FixupUtoprim.zoneStep fix g) a = a := by
    intro L
    induction L with
    | nil => intro _ a; rfl
    | cons z L ih =>
      intro hL a
      have hz : g.good z = true := good z (hL z (by simp))
      rw [List.foldl_cons, FixupUtoprim.zoneStep, if_neg (by rw [hz]; simp), ih (fun z hz => hL z (by simp [hz]))]
  have hp : FixupUtoprim.pass n fix g 0 = ⟨g, 0, 0⟩ := by
    unfold FixupUtoprim.pass
    exact fold _ (fun z hz => (FixupUtoprim.mem_zones n z).1 hz) _
  unfold FixupUtoprim.fixupUtoprim
  rw [show n.N1 * n.N2 * n.N3 + 2 = (n.N1 * n.N2 * n.N3 + 1) + 1 from rfl, FixupUtoprim.loop]
  simp only [← hg, hp]
  have : (0 == n.N1 * n.N2 * n.N3) = false := by simp; omega
  simp [this]

theorem isRank (r : RanksOf S) : Rank S r.1 r.2.1 r.2.2 := by
  obtain ⟨⟨a, ha⟩, ⟨b, hb⟩, ⟨c, hc⟩⟩ := r
  simp only [Rank]
  omega

/-- Programs of a run in which no repair gives up. -/
def Plain (Ds : List (StepData S)) : Prop := ∀ D ∈ Ds, D.again1 = false ∧ D.again2 = false

include hS in
theorem obeys_clean (fill : Fin 3 → Bool → ℤ → ℤ → (ℤ → Cell K) → ℤ → Cell K) (hf : fills S.cfg = some fill) (Ds : List (StepData S)) (hD : Plain S Ds)
    (V : RanksOf S → RankMem K) (s : State K) (h : Mirrors S V s)
    (hc : ∀ (pre : List (Mem K)) (m : Mem K) (s1 : State K), pre.length < Ds.length → pre.foldlM (fun s m => step S m s) s = some s1 → CleanStep S m s1) :
    Obeys S fill Ds V := by
  induction Ds generalizing V s with
  | nil => trivial
  | cons D Ds ih =>
    obtain ⟨f1, f2⟩ := hD D (by simp)
    have cl := hc [] ⟨staleOf V D.e1, staleOf (afterHalf S fill D V) D.e2, halfOf V⟩ s (by simp) rfl
    have hW : Same (fun r => arrays.getP (V r)) s.W := by
      intro r i j k
      obtain ⟨a, b⟩ := (h r).1 i j k
      show (⟨(V r).P i j k, (V r).fl i j k⟩ : Cell K) = _
      rw [a, b]
    have hdt : ∀ r, (V r).dt = s.dt := fun r => (h r).2.1
    have o1 : ∀ r : RanksOf S, gives S (fun _ _ _ => arrays.getH (upToRepair (fluidStep S D).one V r)) r.1 r.2.1 r.2.2 = D.again1 := by
      intro r
      obtain ⟨F, e⟩ := predictor_floors S hS D.e1 (fun _ => D.again1) V s.W s.dt hW hdt r
      show gives S (fun _ _ _ => arrays.getH (upToRepair (predictor S D.e1 fun _ => D.again1) V r)) r.1 r.2.1 r.2.2 = D.again1
      rw [e, f1]
      exact gives_clean S hS _ (fixup_recovered _ cl.1) (isRank S r)
    have hE := fun r => predictor_end S hS D.e1 (fun _ => D.again1) V s.W s.dt D.again1 hW hdt r (o1 r)
    obtain ⟨Wh, b1, b2⟩ := bound_half S fill hf (stageEnd (fluidStep S D).one D.again1 V)
      (repair S (fixup S (advance S (staleOf V D.e1) ((1/2) * s.dt) s.W s.W (flagged (halfOf V) s.W)))) (by
        intro r i j k
        obtain ⟨F, e⟩ := hE r
        show arrays.getH (stageEnd (predictor S D.e1 fun _ => D.again1) D.again1 V r) i j k = _
        rw [e]; rfl)
    obtain ⟨c1, c2⟩ := b2 (afterHalf S fill D V) rfl
    have hp : ∀ r, (afterHalf S fill D V r).P = fun i j k => (s.W r.1 r.2.1 r.2.2 i j k).prim := by
      intro r
      rw [(c2 r).1]
      obtain ⟨F, e⟩ := hE r
      show (stageEnd (predictor S D.e1 fun _ => D.again1) D.again1 V r).P = _
      rw [e]
      exact prim_eq S hW r
    have hdt' : ∀ r, (afterHalf S fill D V r).dt = s.dt := by
      intro r
      rw [(c2 r).2.2.1]
      obtain ⟨F, e⟩ := hE r
      show (stageEnd (predictor S D.e1 fun _ => D.again1) D.again1 V r).dt = _
      rw [e]
    have o2 : ∀ r : RanksOf S, gives S (fun _ _ _ => arrays.getP (upToRepair (fluidStep S D).two (afterHalf S fill D V) r)) r.1 r.2.1 r.2.2 = D.again2 := by
      intro r
      obtain ⟨F, e⟩ := corrector_floors S hS D.e2 (fun _ => D.again2) (afterHalf S fill D V) s.W Wh s.dt hp c1 hdt' r
      show gives S (fun _ _ _ => arrays.getP (upToRepair (corrector S D.e2 fun _ => D.again2) (afterHalf S fill D V) r)) r.1 r.2.1 r.2.2 = D.again2
      rw [e, f2]
      exact gives_clean S hS _ (fixup_recovered _ (cl.2 Wh b1)) (isRank S r)
    obtain ⟨s1, e1, h1⟩ := step_mirrors S hS fill hf D V s h o1 o2
    refine ⟨o1, o2, ih (fun D hD' => hD D (by simp [hD'])) _ s1 h1 ?_⟩
    intro pre m s2 hl e2
    refine hc (⟨staleOf V D.e1, staleOf (afterHalf S fill D V) D.e2, halfOf V⟩ :: pre) m s2 (by simpa using hl) ?_
    rw [List.foldlM_cons, e1]
    exact e2

/-- No recovery fails in the first `n` steps of a run, whatever work arrays hold. -/
def NoFailures (W0 : World (Cell K)) (dt t : K) (n : ℕ) : Prop := ∀ ms : List (Mem K), ms.length = n → CleanRun S W0 dt t ms

include hS in
theorem obeys_of_noFailures (fill : Fin 3 → Bool → ℤ → ℤ → (ℤ → Cell K) → ℤ → Cell K) (hf : fills S.cfg = some fill) (Ds : List (StepData S)) (hD : Plain S Ds)
    (V : RanksOf S → RankMem K) (W0 : World (Cell K)) (dt t : K) (h0 : Loaded S V W0 dt t) (hc : NoFailures S W0 dt t Ds.length) :
    Obeys S fill Ds (afterInit S fill V) := by
  obtain ⟨W, e1, hm⟩ := init_mirrors S hS fill hf V W0 dt t h0
  refine obeys_clean S hS fill hf Ds hD _ _ hm ?_
  intro pre m s1 hl e
  refine hc (pre ++ List.replicate (Ds.length - pre.length) m) (by simp; omega) pre m (List.replicate (Ds.length - pre.length - 1) m) s1 ?_ ?_
  · rw [← List.replicate_succ, show Ds.length - pre.length - 1 + 1 = Ds.length - pre.length by omega]
  · unfold run
    rw [e1]
    exact e

/-! ## Theorems -/

include hS in
/-- **C132 (runs).** Ranks that exchange messages and reductions, in any interleaving and with any buffering, end a fluid run of any number of steps with
the variables, the flags, the time and the step of the run done on all ranks at once (`FluidStep.run`, which C126 to C129 are about), and no message is left
over. Each rank's program is the one its repairs call for. -/
theorem C132_run (fill : Fin 3 → Bool → ℤ → ℤ → (ℤ → Cell K) → ℤ → Cell K) (hf : fills S.cfg = some fill) (Ds : List (StepData S)) (V : RanksOf S → RankMem K)
    (W0 : World (Cell K)) (dt t : K) (h0 : Loaded S V W0 dt t) (ho : Obeys S fill Ds (afterInit S fill V)) (s : St (RanksOf S) (RankMem K) (Zones K))
    (h : Reach (fluidRun S fill Ds) V s) (hd : Done (fluidRun S fill Ds) s) :
    ∃ (ms : List (Mem K)) (s' : State K), ms.length = Ds.length ∧ run S W0 dt t ms = some s' ∧ Mirrors S s.loc s' ∧ ∀ a b t, s.chan a b t = [] := by
  obtain ⟨h1, h2⟩ := C130_results _ _ (run_matched S fill Ds) V s h hd
  obtain ⟨W, e1, hm⟩ := init_mirrors S hS fill hf V W0 dt t h0
  obtain ⟨ms, s', l, e2, hm'⟩ := run_mirrors S hS fill hf Ds _ _ hm ho
  refine ⟨ms, s', l, ?_, ?_, h2⟩
  · unfold run
    rw [e1]
    exact e2
  · rw [h1, run_common, lock_all, run_fold]
    exact hm'

/-- **C132 (completion).** Such a run never blocks, and every schedule of it ends. -/
theorem C132_completes [Nonempty (RanksOf S)] (fill : Fin 3 → Bool → ℤ → ℤ → (ℤ → Cell K) → ℤ → Cell K) (Ds : List (StepData S)) (V : RanksOf S → RankMem K) :
    (∀ s, Reach (fluidRun S fill Ds) V s → ∃ s', Reach (fluidRun S fill Ds) V s' ∧ Done (fluidRun S fill Ds) s') ∧
    (∀ s, Reach (fluidRun S fill Ds) V s → Done (fluidRun S fill Ds) s ∨ ∃ s', Step (fluidRun S fill Ds) false s s') ∧
    ∃ N, ∀ n s, Sched (fluidRun S fill Ds) V n s → n ≤ N := by
  have hM := run_matched S fill Ds
  refine ⟨fun s hs => ?_, fun s hs => ?_, ⟨_, fun n s h => C130_completes _ _ hM V n s h⟩⟩
  · exact C130_finishes _ _ hM V s hs
  · by_cases hd : Done (fluidRun S fill Ds) s
    · exact Or.inl hd
    · exact Or.inr (C130_no_deadlock _ _ hM V s hs hd)

include hS in
/-- **C132 (runs without failures).** If no recovery fails, every rank's program is the one without the extra calls, so nothing else is asked. -/
theorem C132_clean_run (fill : Fin 3 → Bool → ℤ → ℤ → (ℤ → Cell K) → ℤ → Cell K) (hf : fills S.cfg = some fill) (Ds : List (StepData S)) (hD : Plain S Ds)
    (V : RanksOf S → RankMem K) (W0 : World (Cell K)) (dt t : K) (h0 : Loaded S V W0 dt t) (hc : NoFailures S W0 dt t Ds.length)
    (s : St (RanksOf S) (RankMem K) (Zones K)) (h : Reach (fluidRun S fill Ds) V s) (hd : Done (fluidRun S fill Ds) s) :
    ∃ (ms : List (Mem K)) (s' : State K), ms.length = Ds.length ∧ run S W0 dt t ms = some s' ∧ Mirrors S s.loc s' ∧ ∀ a b t, s.chan a b t = [] :=
  C132_run S hS fill hf Ds V W0 dt t h0 (obeys_of_noFailures S hS fill hf Ds hD V W0 dt t h0 hc) s h hd

end stages

/-- **C132 (division).** The grid divided among ranks in two ways, both programs run in any interleaving and with any buffering, with anything in the work arrays and
in the half-step array: after the same number of steps, if no recovery fails in one of them, ranks of the two hold the same variables wherever they hold the
same zone, and the same time and step. -/
theorem C132_division (A B : Setup K) (ha : A.WF) (hb : B.WF) (hAB : SameProblem A B) (hoA : NoUpperOutflow A)
    (fA fB : Fin 3 → Bool → ℤ → ℤ → (ℤ → Cell K) → ℤ → Cell K) (hfA : fills A.cfg = some fA) (hfB : fills B.cfg = some fB)
    (WA WB : World (Cell K)) (hz : SameZones A B WA WB) (dt t : K) (DA : List (StepData A)) (DB : List (StepData B)) (hl : DA.length = DB.length)
    (VA : RanksOf A → RankMem K) (VB : RanksOf B → RankMem K) (hA : Loaded A VA WA dt t) (hB : Loaded B VB WB dt t)
    (hPA : Plain A DA) (hc : NoFailures A WA dt t DA.length) (hoB : Obeys B fB DB (afterInit B fB VB))
    (sA : St (RanksOf A) (RankMem K) (Zones K)) (sB : St (RanksOf B) (RankMem K) (Zones K))
    (rA : Reach (fluidRun A fA DA) VA sA) (dA : Done (fluidRun A fA DA) sA) (rB : Reach (fluidRun B fB DB) VB sB) (dB : Done (fluidRun B fB DB) sB)
    (a : RanksOf A) (b : RanksOf B) :
    (sA.loc a).dt = (sB.loc b).dt ∧ (sA.loc a).t = (sB.loc b).t ∧
    ∀ i j k i' j' k', Act A i j k → Act B i' j' k' → glob A.cfg.d1 a.1 i = glob B.cfg.d1 b.1 i' → glob A.cfg.d2 a.2.1 j = glob B.cfg.d2 b.2.1 j' →
      glob A.cfg.d3 a.2.2 k = glob B.cfg.d3 b.2.2 k' → (sA.loc a).P i j k = (sB.loc b).P i' j' k' := by
  obtain ⟨msA, uA, lA, eA, mA, -⟩ := C132_clean_run A ha fA hfA DA hPA VA WA dt t hA hc sA rA dA
  obtain ⟨msB, uB, lB, eB, mB, -⟩ := C132_run B hb fB hfB DB VB WB dt t hB hoB sB rB dB
  have e1 : (msA.zip msB).map Prod.fst = msA := List.map_fst_zip (by omega)
  have e2 : (msA.zip msB).map Prod.snd = msB := List.map_snd_zip (by omega)
  have := C126_division_partial A B ha hb hAB hoA WA WB hz dt t (msA.zip msB) (by rw [e1]; exact hc msA lA)
  rw [e1, e2, eA, eB] at this
  rcases this with ⟨h, -⟩ | ⟨x, y, hx, hy, hdt, ht, hzz⟩
  · exact absurd h (by simp)
  · simp only [Option.some.injEq] at hx hy
    subst hx hy
    refine ⟨by rw [(mA a).2.1, (mB b).2.1, hdt], by rw [(mA a).2.2, (mB b).2.2, ht], ?_⟩
    intro i j k i' j' k' p q g1 g2 g3
    rw [((mA a).1 i j k).1, ((mB b).1 i' j' k').1]
    exact hzz _ _ _ _ _ _ _ _ _ _ _ _ (isRank A a) (isRank B b) p q g1 g2 g3

/-! ## A run by messages -/

/-- Memory of the ranks of the column. -/
def columnMem (N C : ℤ) (b : BC) (r : RanksOf (column N C b)) : RankMem ℚ :=
  ⟨fun i j k => (ramp N r.1 r.2.1 r.2.2 i j k).prim, fun _ _ _ _ => 7, fun i j k => (ramp N r.1 r.2.1 r.2.2 i j k).pflag, blank.F, fun _ => 0, 1, 0⟩

/-- The only rank of the undivided column. -/
def lone : RanksOf (column 6 1 .periodic) := (⟨0, by decide⟩, ⟨0, by decide⟩, ⟨0, by decide⟩)

/-- The second rank of the divided column. -/
def second : RanksOf (column 3 2 .periodic) := (⟨0, by decide⟩, ⟨0, by decide⟩, ⟨1, by decide⟩)

/-- Three steps of the column on two ranks end, and the ranks then hold what one rank holds. -/
example (D : StepData (column 3 2 .periodic)) (hD : D.again1 = false ∧ D.again2 = false) (D' : StepData (column 6 1 .periodic)) (hD' : D'.again1 = false ∧ D'.again2 = false) :
    ∃ fA fB sA sB, Reach (fluidRun (column 6 1 .periodic) fA [D', D', D']) (columnMem 6 1 .periodic) sA ∧ Done (fluidRun (column 6 1 .periodic) fA [D', D', D']) sA ∧
      Reach (fluidRun (column 3 2 .periodic) fB [D, D, D]) (columnMem 3 2 .periodic) sB ∧ Done (fluidRun (column 3 2 .periodic) fB [D, D, D]) sB ∧
      (sA.loc lone).P 3 3 8 = (sB.loc second).P 3 3 5 := by
  obtain ⟨fA, hfA⟩ : ∃ f, fills (column 6 1 .periodic).cfg = some f := ⟨_, rfl⟩
  obtain ⟨fB, hfB⟩ : ∃ f, fills (column 3 2 .periodic).cfg = some f := ⟨_, rfl⟩
  have nA : Nonempty (RanksOf (column 6 1 .periodic)) := ⟨lone⟩
  have nB : Nonempty (RanksOf (column 3 2 .periodic)) := ⟨second⟩
  obtain ⟨sA, rA, dA⟩ := (C132_completes (column 6 1 .periodic) fA [D', D', D'] (columnMem 6 1 .periodic)).1 _ .start
  obtain ⟨sB, rB, dB⟩ := (C132_completes (column 3 2 .periodic) fB [D, D, D] (columnMem 3 2 .periodic)).1 _ .start
  have wA := column_wf 6 1 .periodic (by norm_num) (by norm_num)
  have wB := column_wf 3 2 .periodic (by norm_num) (by norm_num)
  have lA : Loaded (column 6 1 .periodic) (columnMem 6 1 .periodic) (ramp 6) 1 0 := fun r => ⟨fun i j k => ⟨rfl, rfl⟩, rfl, rfl⟩
  have lB : Loaded (column 3 2 .periodic) (columnMem 3 2 .periodic) (ramp 3) 1 0 := fun r => ⟨fun i j k => ⟨rfl, rfl⟩, rfl, rfl⟩
  have oB := obeys_of_noFailures _ wB fB hfB [D, D, D] (by intro x hx; simp at hx; rw [hx]; exact hD) _ _ _ _ lB (fun ms _ => column_clean _ _ _ _ _ _ _)
  refine ⟨fA, fB, sA, sB, rA, dA, rB, dB, ?_⟩
  refine (C132_division _ _ wA wB (column_same _) (by intro h; simp [column] at h) fA fB hfA hfB _ _ (ramp_same _) 1 0 [D', D', D'] [D, D, D] rfl _ _ lA lB
    (by intro x hx; simp at hx; rw [hx]; exact hD') (fun ms _ => column_clean _ _ _ _ _ _ _) oB sA sB rA dA rB dB lone second).2.2 3 3 8 3 3 5 ?_ ?_ ?_ ?_ ?_
  · simp [Act, act, column, NG]
  · simp [Act, act, column, NG]
  · rfl
  · rfl
  · rfl

end Nubhlight.Messages
