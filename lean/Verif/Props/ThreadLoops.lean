import Verif.Props.Threads
import Mathlib.Order.Interval.Finset.Basic
import Mathlib.Data.Int.Interval
import Mathlib.Order.Interval.Finset.Defs
import Mathlib.Tactic.IntervalCases
import Mathlib.Tactic.FinCases

set_option autoImplicit false
set_option linter.unusedSectionVars false

/-! # C124, C125: the loops of the fluid solver and the tallies of the radiation -/

namespace Nubhlight.Threads

section Exists

variable {I A V : Type*} [DecidableEq I] [DecidableEq A] [AddCommGroup V]

theorem finish (s : Finset I) (k : ℕ) (c : Conf I A V) (hs : ∀ i, i ∉ s → c.rest i = [])
    (hk : ∑ i ∈ s, (c.rest i).length = k) : ∃ sched c', runs sched c = some c' ∧ ∀ i, c'.rest i = [] := by
  induction k using Nat.strong_induction_on generalizing c with
  | _ k ih =>
    by_cases h : ∀ i, c.rest i = []
    · exact ⟨[], c, rfl, h⟩
    · push Not at h
      obtain ⟨i, hi⟩ := h
      have his : i ∈ s := by
        by_contra hn
        exact hi (hs i hn)
      cases hr : c.rest i with
      | nil => exact absurd hr hi
      | cons op ops =>
        have hstep : step i c = some ⟨Function.update c.rest i ops, Function.update c.reg i (act op (c.reg i, c.mem)).1,
            (act op (c.reg i, c.mem)).2⟩ := by simp [step, hr]
        obtain ⟨sched, c', h1, h2⟩ := ih (∑ j ∈ s, (Function.update c.rest i ops j).length) (by
            rw [← hk]
            refine Finset.sum_lt_sum (fun j _ => ?_) ⟨i, his, by simp [hr]⟩
            by_cases hj : j = i
            · subst hj; simp [hr]
            · simp [hj])
          ⟨Function.update c.rest i ops, Function.update c.reg i (act op (c.reg i, c.mem)).1, (act op (c.reg i, c.mem)).2⟩
          (by
            intro j hj
            by_cases hji : j = i
            · subst hji; exact absurd his hj
            · simp [hji, hs j hj]) rfl
        exact ⟨i :: sched, c', by simp only [runs, hstep, Option.bind_some, h1], h2⟩

/-- Every loop with finitely many iterations has a complete schedule: the statements about all of them are not empty. -/
theorem C124_some_schedule (prog : I → List (Op A V)) (s : Finset I) (hs : ∀ i, i ∉ s → prog i = []) (m : A → V) :
    ∃ sched m', Ends prog m sched m' := by
  obtain ⟨sched, c, h1, h2⟩ := finish s _ (start prog m) hs rfl
  exact ⟨sched, c.mem, c, h1, h2, rfl⟩

end Exists

variable {K : Type*} [Field K] [DecidableEq K]

theorem mem_rowAddrs (n : ℕ) (a : Arr) (z : Zone) (x : Addr) : x ∈ rowAddrs n a z ↔ x.1 = a ∧ x.2.1 = z ∧ x.2.2 < n := by
  obtain ⟨b, w, ip⟩ := x
  simp only [rowAddrs, List.mem_map, List.mem_range, Prod.mk.injEq]
  constructor
  · rintro ⟨k, hk, rfl, rfl, rfl⟩; exact ⟨rfl, rfl, hk⟩
  · rintro ⟨rfl, rfl, h⟩; exact ⟨ip, h, rfl, rfl, rfl⟩

theorem row_snap (n : ℕ) (R : List Addr) (m : Addr → K) (a : Arr) (z : Zone) (h : ∀ x ∈ rowAddrs n a z, x ∈ R) :
    row n (snap R m) a z = row n m a z := by
  funext ip
  unfold row
  split_ifs with hi
  · have := h (a, z, ip) ((mem_rowAddrs n a z _).2 ⟨rfl, rfl, hi⟩)
    simp [snap, this]
  · rfl

/-- The range of the zone loops as a finite set. -/
def box (d : FluxCT.Dims) : Finset Zone := Finset.Icc (-1) (d.n1 + 1) ×ˢ Finset.Icc (-1) (d.n2 + 1) ×ˢ Finset.Icc (-1) (d.n3 + 1)

theorem inZ_box (d : FluxCT.Dims) (z : Zone) (h : inZ d z = true) : z ∈ box d := by
  simp only [inZ, FluxCT.inBox, Bool.and_eq_true, decide_eq_true_eq] at h
  simp only [box, Finset.mem_product, Finset.mem_Icc]
  omega

/-- Conserved variables the update computes from memory `m` (specification): those of the zone, plus the step times flux
differences and source. -/
def updatedU (n : ℕ) (ph : Phys K) (dx : Fin 3 → K) (Dt : K) (Pi Pb : Arr) (m : Addr → K) (z : Zone) : ℕ → K := fun ip =>
  ph.cons z (row n m Pi z) ip +
    Dt * ((row n m (.F 0) z ip - row n m (.F 0) (z + (1, 0, 0)) ip) / dx 0
      + (row n m (.F 1) z ip - row n m (.F 1) (z + (0, 1, 0)) ip) / dx 1
      + (row n m (.F 2) z ip - row n m (.F 2) (z + (0, 0, 1)) ip) / dx 2 + ph.source z (row n m Pb z) ip)

theorem newU_eq (n : ℕ) (ph : Phys K) (dx : Fin 3 → K) (Dt : K) (Pi Pb : Arr) (m : Addr → K) (z : Zone) :
    newU n ph dx Dt Pi Pb z m = updatedU n ph dx Dt Pi Pb m z := by
  funext ip
  simp only [newU, updatedU, shift, Matrix.cons_val_zero, Matrix.cons_val_one, Matrix.cons_val]
  ring

/-- **C124, the update of the fluid.** For every division of the zones among threads and every interleaving, with the target
array the same as the array updated or not: each active zone ends up with the variables recovered from the conserved ones
computed from the values before the loop; failure marks are set where recovery failed, and nothing else changes. -/
theorem C124_update (d : FluxCT.Dims) (n : ℕ) (ph : Phys K) (dx : Fin 3 → K) (Dt : K) (Pi Pb Pf : Arr)
    (hF : ∀ k, Pf ≠ .F k) (hp : Pf ≠ .pflag) (hf : Pf ≠ .failSave) (m m' : Addr → K) (sched : List Zone)
    (h : Ends (updateLoop d n ph dx Dt Pi Pb Pf) m sched m') :
    (∀ z, inZ d z = true →
      (∀ ip, ip < n → m' (Pf, z, ip) = ph.inv z (updatedU n ph dx Dt Pi Pb m z) (row n m Pf z) ip) ∧
      m' (.pflag, z, 0) = ph.code z (updatedU n ph dx Dt Pi Pb m z) (row n m Pf z) ∧
      m' (.failSave, z, 0) = if ph.code z (updatedU n ph dx Dt Pi Pb m z) (row n m Pf z) = 0 then m (.failSave, z, 0) else 1) ∧
    ∀ x : Addr, ¬ (inZ d x.2.1 = true ∧ ((x.1 = Pf ∧ x.2.2 < n) ∨ ((x.1 = .pflag ∨ x.1 = .failSave) ∧ x.2.2 = 0))) → m' x = m x := by
  have keys : ∀ z (x : Addr), x ∈ (updateBody n ph dx Dt Pi Pb Pf z).keys ↔
      x.2.1 = z ∧ ((x.1 = Pf ∧ x.2.2 < n) ∨ ((x.1 = .pflag ∨ x.1 = .failSave) ∧ x.2.2 = 0)) := by
    rintro z ⟨a, w, ip⟩
    simp only [Body.keys, updateBody, List.map_append, List.map_map, List.mem_append, List.mem_map, List.mem_range,
      Function.comp, List.map_cons, List.map_nil, List.mem_cons, List.not_mem_nil, or_false, Prod.mk.injEq]
    constructor
    · rintro (⟨k, hk, rfl, rfl, rfl⟩ | ⟨rfl, rfl, rfl⟩ | ⟨rfl, rfl, rfl⟩)
      · exact ⟨rfl, Or.inl ⟨rfl, hk⟩⟩
      · exact ⟨rfl, Or.inr ⟨Or.inl rfl, rfl⟩⟩
      · exact ⟨rfl, Or.inr ⟨Or.inr rfl, rfl⟩⟩
    · rintro ⟨rfl, (⟨rfl, hk⟩ | ⟨rfl | rfl, rfl⟩)⟩
      · exact Or.inl ⟨ip, hk, rfl, rfl, rfl⟩
      · exact Or.inr (Or.inl ⟨rfl, rfl, rfl⟩)
      · exact Or.inr (Or.inr ⟨rfl, rfl, rfl⟩)
  have reads : ∀ z (x : Addr), x ∈ (updateBody n ph dx Dt Pi Pb Pf z).R →
      (x.2.1 = z ∨ ∃ k, x.1 = .F k) := by
    intro z x hx
    simp only [updateBody, List.mem_append, mem_rowAddrs] at hx
    rcases hx with (((((((hx | hx) | hx) | hx) | hx) | hx) | hx) | hx) | hx
    · exact Or.inl hx.2.1
    · exact Or.inl hx.2.1
    · exact Or.inr ⟨_, hx.1⟩
    · exact Or.inl hx.2.1
    · exact Or.inr ⟨_, hx.1⟩
    · exact Or.inl hx.2.1
    · exact Or.inr ⟨_, hx.1⟩
    · exact Or.inl hx.2.1
    · exact Or.inl hx.2.1
  have nod : ∀ z, (updateBody n ph dx Dt Pi Pb Pf z).keys.Nodup := by
    intro z
    simp only [Body.keys, updateBody, List.map_append, List.map_map, List.map_cons, List.map_nil]
    rw [List.nodup_append]
    refine ⟨?_, by simp, ?_⟩
    · refine List.Nodup.map ?_ List.nodup_range
      intro a b hab
      simpa using hab
    · intro a ha b hb hab
      simp only [List.mem_map, List.mem_range, Function.comp] at ha
      obtain ⟨k, -, rfl⟩ := ha
      simp only [List.mem_cons, List.not_mem_nil, or_false] at hb
      rcases hb with rfl | rfl
      · exact hp (Prod.mk.inj hab).1
      · exact hf (Prod.mk.inj hab).1
  have hsim := C124_simultaneous (inZ d) (updateBody n ph dx Dt Pi Pb Pf) (box d) (inZ_box d) nod ?_ m m' sched h
  · have sn : ∀ z a w, (∀ x ∈ rowAddrs n a w, x ∈ (updateBody n ph dx Dt Pi Pb Pf z).R) →
        row n (snap (updateBody n ph dx Dt Pi Pb Pf z).R m) a w = row n m a w := fun z a w h => row_snap n _ m a w h
    have hU : ∀ z, newU n ph dx Dt Pi Pb z (snap (updateBody n ph dx Dt Pi Pb Pf z).R m) = updatedU n ph dx Dt Pi Pb m z := by
      intro z
      rw [← newU_eq]
      funext ip
      simp only [newU]
      rw [sn z Pi z, sn z (.F 0) (shift z 0), sn z (.F 0) z, sn z (.F 1) (shift z 1), sn z (.F 1) z, sn z (.F 2) (shift z 2),
        sn z (.F 2) z, sn z Pb z] <;>
      · intro x hx
        simp only [updateBody, List.mem_append]
        tauto
    have hg : ∀ z, row n (snap (updateBody n ph dx Dt Pi Pb Pf z).R m) Pf z = row n m Pf z := by
      intro z
      refine sn z Pf z fun x hx => ?_
      simp only [updateBody, List.mem_append]
      tauto
    refine ⟨fun z hz => ⟨fun ip hip => ?_, ?_, ?_⟩, fun x hx => ?_⟩
    · have := hsim.1 z hz ((Pf, z, ip), fun r => some (ph.inv z (newU n ph dx Dt Pi Pb z r) (row n r Pf z) ip)) (by
        simp only [updateBody, List.mem_append, List.mem_map, List.mem_range]
        exact Or.inl ⟨ip, hip, rfl⟩)
      rw [this, Option.getD_some, hU, hg]
    · have := hsim.1 z hz ((.pflag, z, 0), fun r => some (ph.code z (newU n ph dx Dt Pi Pb z r) (row n r Pf z))) (by
        simp [updateBody])
      rw [this, Option.getD_some, hU, hg]
    · have := hsim.1 z hz ((.failSave, z, 0), fun r => if ph.code z (newU n ph dx Dt Pi Pb z r) (row n r Pf z) = 0 then none else some 1) (by
        simp [updateBody])
      rw [this]
      simp only [hU, hg]
      split_ifs <;> rfl
    · refine hsim.2 x fun z hz hk => ?_
      obtain ⟨h1, h2⟩ := (keys z x).1 hk
      exact hx ⟨by rw [h1]; exact hz, h2⟩
  · intro z w hzw x hx
    obtain ⟨h1, h2⟩ := (keys z x).1 hx
    refine ⟨fun hr => ?_, fun hk => hzw (h1.symm.trans ((keys w x).1 hk).1)⟩
    rcases reads w x hr with h | ⟨k, hk⟩
    · exact hzw (h1.symm.trans h)
    · rcases h2 with ⟨h2, -⟩ | ⟨h2 | h2, -⟩
      · exact hF k (h2.symm.trans hk)
      · rw [hk] at h2; cases h2
      · rw [hk] at h2; cases h2

/-- Conserved variables with the four-force added (specification). -/
def pushedU (n : ℕ) (ph : Phys K) (Dt : K) (comp : ℕ → Option ℕ) (nG : ℕ) (m : Addr → K) (z : Zone) : ℕ → K := fun ip =>
  match comp ip with
  | some g => ph.cons z (row n m .P z) ip + Dt * row nG m .radG z g
  | none => ph.cons z (row n m .P z) ip

/-- **C124, the four-force.** For every schedule each active zone is updated once from its values before the loop, the applied
force is added once to the running total, and the force itself is left alone. -/
theorem C124_force (d : FluxCT.Dims) (n : ℕ) (ph : Phys K) (Dt : K) (comp : ℕ → Option ℕ) (nG : ℕ) (m m' : Addr → K)
    (sched : List Zone) (h : Ends (forceLoop d n ph Dt comp nG) m sched m') :
    (∀ z, inZ d z = true →
      (∀ ip, ip < n → m' (.P, z, ip) = ph.inv z (pushedU n ph Dt comp nG m z) (row n m .P z) ip ∧ m' (.psuper, z, ip) = m (.P, z, ip)) ∧
      (∀ g, g < nG → m' (.radGint, z, g) = m (.radGint, z, g) + Dt * m (.radG, z, g)) ∧
      m' (.pflag, z, 0) = ph.code z (pushedU n ph Dt comp nG m z) (row n m .P z) ∧
      m' (.failSave, z, 0) = if ph.code z (pushedU n ph Dt comp nG m z) (row n m .P z) = 0 then m (.failSave, z, 0) else 1) ∧
    ∀ x : Addr, (inZ d x.2.1 = false ∨ x.1 = .radG ∨ x.1 = .Ph ∨ ∃ k, x.1 = .F k) → m' x = m x := by
  set B := forceBody n ph Dt comp nG with hB
  have keyz : ∀ z (x : Addr), x ∈ (B z).keys → x.2.1 = z ∧ (x.1 = .psuper ∨ x.1 = .radGint ∨ x.1 = .P ∨ x.1 = .pflag ∨ x.1 = .failSave) := by
    rintro z ⟨a, w, ip⟩ hx
    simp only [hB, Body.keys, forceBody, List.map_append, List.map_map, List.mem_append, List.mem_map, List.mem_range,
      Function.comp, List.map_cons, List.map_nil, List.mem_cons, List.not_mem_nil, or_false, Prod.mk.injEq] at hx
    rcases hx with ((⟨k, hk, rfl, rfl, rfl⟩ | ⟨k, hk, rfl, rfl, rfl⟩) | ⟨k, hk, rfl, rfl, rfl⟩) | ⟨rfl, rfl, rfl⟩ | ⟨rfl, rfl, rfl⟩ <;> simp
  have reads : ∀ z (x : Addr), x ∈ (B z).R → x.2.1 = z := by
    intro z x hx
    simp only [hB, forceBody, List.mem_append, mem_rowAddrs] at hx
    rcases hx with (hx | hx) | hx <;> exact hx.2.1
  have nod : ∀ z, (B z).keys.Nodup := by
    intro z
    simp only [hB, Body.keys, forceBody, List.map_append, List.map_map, List.map_cons, List.map_nil, List.nodup_append]
    have inj : ∀ (a : Arr) (k : ℕ), (List.map (fun ip : ℕ => ((a, z, ip) : Addr)) (List.range k)).Nodup := by
      intro a k
      refine List.Nodup.map ?_ List.nodup_range
      intro x y hxy
      simpa using hxy
    refine ⟨⟨⟨inj _ _, inj _ _, ?_⟩, inj _ _, ?_⟩, by simp, ?_⟩
    · intro x hx y hy hxy
      simp only [List.mem_map, Function.comp] at hx hy
      obtain ⟨_, -, rfl⟩ := hx
      obtain ⟨_, -, rfl⟩ := hy
      simp at hxy
    · intro x hx y hy hxy
      simp only [List.mem_append, List.mem_map, Function.comp] at hx hy
      obtain ⟨_, -, rfl⟩ := hy
      rcases hx with ⟨_, -, rfl⟩ | ⟨_, -, rfl⟩ <;> simp at hxy
    · intro x hx y hy hxy
      simp only [List.mem_append, List.mem_map, Function.comp, List.mem_cons, List.not_mem_nil, or_false] at hx hy
      rcases hx with (⟨_, -, rfl⟩ | ⟨_, -, rfl⟩) | ⟨_, -, rfl⟩ <;> rcases hy with rfl | rfl <;> simp at hxy
  have hsim := C124_simultaneous (inZ d) B (box d) (inZ_box d) nod
    (fun z w hzw x hx => ⟨fun hr => hzw ((keyz z x hx).1.symm.trans (reads w x hr)),
      fun hk => hzw ((keyz z x hx).1.symm.trans (keyz w x hk).1)⟩) m m' sched h
  have sP : ∀ z, row n (snap (B z).R m) .P z = row n m .P z := by
    intro z
    refine row_snap n _ m _ _ fun x hx => ?_
    simp only [hB, forceBody, List.mem_append]; tauto
  have sG : ∀ z, row nG (snap (B z).R m) .radG z = row nG m .radG z := by
    intro z
    refine row_snap nG _ m _ _ fun x hx => ?_
    simp only [hB, forceBody, List.mem_append]; tauto
  have hU : ∀ z, forcedU n ph Dt comp nG z (snap (B z).R m) = pushedU n ph Dt comp nG m z := by
    intro z
    funext ip
    simp only [forcedU, pushedU, sP, sG]
    cases comp ip <;> simp
  have one : ∀ (z : Zone) (x : Addr), x ∈ (B z).R → snap (B z).R m x = m x := fun z x hx => by simp [snap, hx]
  refine ⟨fun z hz => ⟨fun ip hip => ⟨?_, ?_⟩, fun g hg => ?_, ?_, ?_⟩, fun x hx => ?_⟩
  · have := hsim.1 z hz ((.P, z, ip), fun r => some (ph.inv z (forcedU n ph Dt comp nG z r) (row n r .P z) ip)) (by
      simp only [hB, forceBody, List.mem_append, List.mem_map, List.mem_range]
      exact Or.inl (Or.inr ⟨ip, hip, rfl⟩))
    rw [this, Option.getD_some, hU, sP]
  · have := hsim.1 z hz ((.psuper, z, ip), fun r => some (r (.P, z, ip))) (by
      simp only [hB, forceBody, List.mem_append, List.mem_map, List.mem_range]
      exact Or.inl (Or.inl (Or.inl ⟨ip, hip, rfl⟩)))
    rw [this, Option.getD_some, one]
    simp only [hB, forceBody, List.mem_append, mem_rowAddrs]
    exact Or.inl (Or.inl ⟨trivial, trivial, hip⟩)
  · have := hsim.1 z hz ((.radGint, z, g), fun r => some (r (.radGint, z, g) + Dt * r (.radG, z, g))) (by
      simp only [hB, forceBody, List.mem_append, List.mem_map, List.mem_range]
      exact Or.inl (Or.inl (Or.inr ⟨g, hg, rfl⟩)))
    rw [this, Option.getD_some, one, one]
    · simp only [hB, forceBody, List.mem_append, mem_rowAddrs]
      exact Or.inl (Or.inr ⟨trivial, trivial, hg⟩)
    · simp only [hB, forceBody, List.mem_append, mem_rowAddrs]
      exact Or.inr ⟨trivial, trivial, hg⟩
  · have := hsim.1 z hz ((.pflag, z, 0), fun r => some (ph.code z (forcedU n ph Dt comp nG z r) (row n r .P z))) (by
      simp [hB, forceBody])
    rw [this, Option.getD_some, hU, sP]
  · have := hsim.1 z hz ((.failSave, z, 0), fun r => if ph.code z (forcedU n ph Dt comp nG z r) (row n r .P z) = 0 then none else some 1) (by
      simp [hB, forceBody])
    rw [this]
    simp only [hU, sP]
    split_ifs <;> rfl
  · refine hsim.2 x fun z hz hk => ?_
    obtain ⟨h1, h2⟩ := keyz z x hk
    rcases hx with hx | hx | hx | ⟨k, hx⟩
    · rw [h1, hz] at hx; cases hx
    all_goals rw [hx] at h2; simp at h2

/-! ## `flux_ct` -/

/-- The magnetic fluxes in memory. -/
def fluxes (m : Addr → K) : FluxCT.Fluxes K where
  f1 := ⟨fun i j k => m (.F 0, (i, j, k), 0), fun i j k => m (.F 0, (i, j, k), 1), fun i j k => m (.F 0, (i, j, k), 2)⟩
  f2 := ⟨fun i j k => m (.F 1, (i, j, k), 0), fun i j k => m (.F 1, (i, j, k), 1), fun i j k => m (.F 1, (i, j, k), 2)⟩
  f3 := ⟨fun i j k => m (.F 2, (i, j, k), 0), fun i j k => m (.F 2, (i, j, k), 1), fun i j k => m (.F 2, (i, j, k), 2)⟩

/-- The work arrays in memory. -/
def emfs (m : Addr → K) : FluxCT.Emf K where
  e1 i j k := m (.emf 0, (i, j, k), 0)
  e2 i j k := m (.emf 1, (i, j, k), 0)
  e3 i j k := m (.emf 2, (i, j, k), 0)

theorem emf_phase (d : FluxCT.Dims) (m m' : Addr → K) (sched : List (Fin 3 × Zone)) (h : Ends (emfLoop d) m sched m') :
    emfs m' = FluxCT.emfCalc d (fluxes m) (emfs m) ∧ fluxes m' = fluxes m := by
  have keys : ∀ (z : Zone) (x : Addr), x ∈ (emfBody z : Body Addr K).keys ↔ x.2.1 = z ∧ x.2.2 = 0 ∧ ∃ k, x.1 = .emf k := by
    rintro ⟨i, j, k⟩ ⟨a, w, ip⟩
    simp only [Body.keys, emfBody, List.map_cons, List.map_nil, List.mem_cons, List.not_mem_nil, or_false, Prod.mk.injEq]
    constructor
    · rintro (⟨rfl, rfl, rfl⟩ | ⟨rfl, rfl, rfl⟩ | ⟨rfl, rfl, rfl⟩) <;> simp
    · rintro ⟨rfl, rfl, e, rfl⟩
      rcases e with ⟨e, he⟩
      interval_cases e <;> simp
  have reads : ∀ (z : Zone) (x : Addr), x ∈ (emfBody z : Body Addr K).R → ∃ k, x.1 = .F k := by
    rintro ⟨i, j, k⟩ x hx
    simp only [emfBody, List.mem_cons, List.not_mem_nil, or_false] at hx
    rcases hx with rfl | rfl | rfl | rfl | rfl | rfl | rfl | rfl | rfl | rfl | rfl | rfl <;> exact ⟨_, rfl⟩
  set ins : Fin 3 × Zone → Bool := fun x => decide (x.1 = 0) && FluxCT.inBox 0 d.n1 0 d.n2 0 d.n3 x.2.1 x.2.2.1 x.2.2.2 with hins
  -- iterations outside the loop have nothing to do; they are given an empty body
  have h' : Ends (loopOf ins fun x : Fin 3 × Zone => if x.1 = 0 then (emfBody x.2 : Body Addr K) else ⟨[], []⟩) m sched m' := by
    have e : (loopOf ins fun x : Fin 3 × Zone => if x.1 = 0 then (emfBody x.2 : Body Addr K) else ⟨[], []⟩) = emfLoop d := by
      funext x
      simp only [loopOf, emfLoop, hins]
      by_cases hx : x.1 = 0
      · simp [hx]
      · simp [hx]
    rw [e]; exact h
  have hsim := C124_simultaneous ins _ (Finset.univ ×ˢ box d)
    (by
      rintro ⟨k, z⟩ hx
      simp only [hins, FluxCT.inBox, Bool.and_eq_true, decide_eq_true_eq] at hx
      simp only [box, Finset.mem_product, Finset.mem_univ, true_and, Finset.mem_Icc]
      omega)
    (by
      rintro ⟨k, z⟩
      by_cases hk : k = 0
      · simp [hk, Body.keys, emfBody]
      · simp [hk, Body.keys])
    (by
      rintro ⟨k, z⟩ ⟨l, w⟩ hne x hx
      by_cases hk : k = 0
      · by_cases hl : l = 0
        · subst hk; subst hl
          simp only [if_true] at hx ⊢
          obtain ⟨h1, -, e, h3⟩ := (keys z x).1 hx
          refine ⟨fun hr => ?_, fun hr => ?_⟩
          · obtain ⟨e', h4⟩ := reads w x hr
            rw [h3] at h4; cases h4
          · exact hne (by rw [← h1, ((keys w x).1 hr).1])
        · simp [hl, Body.keys]
      · simp [hk, Body.keys] at hx) m m' sched h'
  obtain ⟨s1, s2⟩ := hsim
  have inside : ∀ i j k, FluxCT.inBox 0 d.n1 0 d.n2 0 d.n3 i j k = true → ins (0, (i, j, k)) = true := by
    intro i j k hb; simp [hins, hb]
  have same : ∀ x : Addr, (∀ k, x.1 ≠ .emf k) → m' x = m x := by
    intro x hx
    refine s2 x fun y hy hk => ?_
    by_cases hy0 : y.1 = 0
    · simp only [hy0, if_true] at hk
      obtain ⟨-, -, e, he⟩ := (keys _ _).1 hk
      exact hx e he
    · simp [hy0, Body.keys] at hk
  have outside : ∀ i j k e, FluxCT.inBox 0 d.n1 0 d.n2 0 d.n3 i j k = false → m' (.emf e, (i, j, k), 0) = m (.emf e, (i, j, k), 0) := by
    intro i j k e hb
    refine s2 _ fun y hy hk => ?_
    by_cases hy0 : y.1 = 0
    · simp only [hy0, if_true] at hk
      have := ((keys _ _).1 hk).1
      simp only at this
      simp only [hins, ← this, hb, Bool.and_false] at hy
      cases hy
    · simp [hy0, Body.keys] at hk
  refine ⟨?_, ?_⟩
  · have e3 : ∀ i j k, FluxCT.inBox 0 d.n1 0 d.n2 0 d.n3 i j k = true → m' (.emf 2, (i, j, k), 0) =
        (1/4) * (m (.F 0, (i, j, k), 1) + m (.F 0, (i, j - 1, k), 1) - m (.F 1, (i, j, k), 0) - m (.F 1, (i - 1, j, k), 0)) := by
      intro i j k hb
      have := s1 _ (inside i j k hb) _ (by simp only [if_true, emfBody]; exact List.mem_cons_self)
      rw [this, Option.getD_some]
      simp [snap, emfBody]
    have e2 : ∀ i j k, FluxCT.inBox 0 d.n1 0 d.n2 0 d.n3 i j k = true → m' (.emf 1, (i, j, k), 0) =
        -(1/4) * (m (.F 0, (i, j, k), 2) + m (.F 0, (i, j, k - 1), 2) - m (.F 2, (i, j, k), 0) - m (.F 2, (i - 1, j, k), 0)) := by
      intro i j k hb
      have := s1 _ (inside i j k hb) _ (by
        simp only [if_true, emfBody]; exact List.mem_cons_of_mem _ List.mem_cons_self)
      rw [this, Option.getD_some]
      simp [snap, emfBody]
    have e1 : ∀ i j k, FluxCT.inBox 0 d.n1 0 d.n2 0 d.n3 i j k = true → m' (.emf 0, (i, j, k), 0) =
        (1/4) * (m (.F 1, (i, j, k), 2) + m (.F 1, (i, j, k - 1), 2) - m (.F 2, (i, j, k), 1) - m (.F 2, (i, j - 1, k), 1)) := by
      intro i j k hb
      have := s1 _ (inside i j k hb) _ (by
        simp only [if_true, emfBody]; exact List.mem_cons_of_mem _ (List.mem_cons_of_mem _ List.mem_cons_self))
      rw [this, Option.getD_some]
      simp [snap, emfBody]
    simp only [emfs, FluxCT.emfCalc, fluxes, FluxCT.Emf.mk.injEq]
    refine ⟨?_, ?_, ?_⟩ <;> funext i j k <;> cases hb : FluxCT.inBox 0 d.n1 0 d.n2 0 d.n3 i j k
    · simp [outside i j k _ hb]
    · simp [e1 i j k hb]
    · simp [outside i j k _ hb]
    · simp [e2 i j k hb]
    · simp [outside i j k _ hb]
    · simp [e3 i j k hb]
  · have sf : ∀ e z ip, m' (.F e, z, ip) = m (.F e, z, ip) := fun e z ip => same _ (by simp)
    simp only [fluxes, sf]

theorem rewrite_phase (d : FluxCT.Dims) (m m' : Addr → K) (sched : List (Fin 3 × Zone)) (h : Ends (rewriteLoop d) m sched m')
    (F : FluxCT.Fluxes K) (old : FluxCT.Emf K) (hf : fluxes m = F) (he : emfs m = FluxCT.emfCalc d F old) :
    fluxes m' = FluxCT.fluxCT d F old := by
  have keys : ∀ (y : Fin 3 × Zone) (x : Addr), x ∈ (rewriteBody y : Body Addr K).keys ↔ x.2.1 = y.2 ∧ x.1 = .F y.1 ∧ x.2.2 < 3 := by
    rintro ⟨e, i, j, k⟩ ⟨a, w, ip⟩
    have h3 : ip < 3 ↔ ip = 0 ∨ ip = 1 ∨ ip = 2 := by omega
    rcases e with ⟨e, hlt⟩
    interval_cases e <;>
    · simp only [Body.keys, rewriteBody, List.map_cons, List.map_nil, List.mem_cons, List.not_mem_nil, or_false, Prod.mk.injEq, h3]
      tauto
  have reads : ∀ (y : Fin 3 × Zone) (x : Addr), x ∈ (rewriteBody y : Body Addr K).R → ∃ e, x.1 = .emf e := by
    rintro ⟨e, i, j, k⟩ x hx
    rcases e with ⟨e, hlt⟩
    interval_cases e <;>
    · simp only [rewriteBody, List.mem_cons, List.not_mem_nil, or_false] at hx
      rcases hx with rfl | rfl | rfl | rfl <;> exact ⟨_, rfl⟩
  obtain ⟨s1, s2⟩ := C124_simultaneous (rewriteIn d) (rewriteBody : Fin 3 × Zone → Body Addr K) (Finset.univ ×ˢ box d)
    (by
      rintro ⟨e, i, j, k⟩ hx
      rcases e with ⟨e, hlt⟩
      interval_cases e <;>
      · simp only [rewriteIn, FluxCT.inBox, Bool.and_eq_true, decide_eq_true_eq] at hx
        simp only [box, Finset.mem_product, Finset.mem_univ, true_and, Finset.mem_Icc]
        omega)
    (by
      rintro ⟨e, i, j, k⟩
      rcases e with ⟨e, hlt⟩
      interval_cases e <;> simp [Body.keys, rewriteBody])
    (by
      intro y w hne x hx
      obtain ⟨h1, h2, -⟩ := (keys y x).1 hx
      refine ⟨fun hr => ?_, fun hr => ?_⟩
      · obtain ⟨e, h3⟩ := reads w x hr
        rw [h2] at h3; cases h3
      · obtain ⟨h3, h4, -⟩ := (keys w x).1 hr
        refine hne (Prod.ext ?_ (h1.symm.trans h3))
        rw [h2] at h4
        exact Arr.F.inj h4) m m' sched h
  have outside : ∀ (e : Fin 3) (z : Zone) (ip : ℕ), rewriteIn d (e, z) = false → m' (.F e, z, ip) = m (.F e, z, ip) := by
    intro e z ip hb
    refine s2 _ fun y hy hk => ?_
    obtain ⟨h1, h2, -⟩ := (keys y _).1 hk
    have : y = (e, z) := Prod.ext (Arr.F.inj h2).symm h1.symm
    rw [this, hb] at hy; cases hy
  have a : ∀ (e : Fin 3) (i j k : ℤ) (p : Addr × ((Addr → K) → Option K)), rewriteIn d (e, (i, j, k)) = true →
      p ∈ (rewriteBody (e, (i, j, k)) : Body Addr K).W →
      m' p.1 = (p.2 (snap (rewriteBody (e, (i, j, k)) : Body Addr K).R m)).getD (m p.1) := fun e i j k p h1 h2 => s1 _ h1 p h2
  have g1 : ∀ i j k, m (.emf 0, (i, j, k), 0) = (FluxCT.emfCalc d F old).e1 i j k := fun i j k => by rw [← he]; rfl
  have g2 : ∀ i j k, m (.emf 1, (i, j, k), 0) = (FluxCT.emfCalc d F old).e2 i j k := fun i j k => by rw [← he]; rfl
  have g3 : ∀ i j k, m (.emf 2, (i, j, k), 0) = (FluxCT.emfCalc d F old).e3 i j k := fun i j k => by rw [← he]; rfl
  have v : ∀ (e : Fin 3) (i j k : ℤ), rewriteIn d (e, (i, j, k)) = true → ∀ p ∈ (rewriteBody (e, (i, j, k)) : Body Addr K).W,
      m' p.1 = (p.2 (snap (rewriteBody (e, (i, j, k)) : Body Addr K).R m)).getD (m p.1) := fun e i j k h1 p h2 => s1 _ h1 p h2
  subst hf
  have v0 := fun i j k h => v 0 i j k h
  have v1 := fun i j k h => v 1 i j k h
  have v2 := fun i j k h => v 2 i j k h
  simp only [rewriteBody, List.mem_cons, List.not_mem_nil, or_false, forall_eq_or_imp, forall_eq, Option.getD_some] at v0 v1 v2
  simp only [fluxes, FluxCT.fluxCT, FluxCT.Fluxes.mk.injEq]
  simp only [fluxes] at g1 g2 g3
  refine ⟨?_, ?_, ?_⟩
  · rw [FluxCT.BArr.mk.injEq]
    refine ⟨?_, ?_, ?_⟩ <;> funext i j k <;>
      cases hb : FluxCT.inBox 0 d.n1 0 (d.n2 - 1) 0 (d.n3 - 1) i j k
    · simp [outside 0 (i, j, k) _ hb]
    · simp [(v0 i j k hb).1]
    · simp [outside 0 (i, j, k) _ hb]
    · rw [(v0 i j k hb).2.1]; simp [snap, g1, g2, g3]
    · simp [outside 0 (i, j, k) _ hb]
    · rw [(v0 i j k hb).2.2]; simp [snap, g1, g2, g3]
  · rw [FluxCT.BArr.mk.injEq]
    refine ⟨?_, ?_, ?_⟩ <;> funext i j k <;>
      cases hb : FluxCT.inBox 0 (d.n1 - 1) 0 d.n2 0 (d.n3 - 1) i j k
    · simp [outside 1 (i, j, k) _ hb]
    · rw [(v1 i j k hb).1]; simp [snap, g1, g2, g3]
    · simp [outside 1 (i, j, k) _ hb]
    · simp [(v1 i j k hb).2.1]
    · simp [outside 1 (i, j, k) _ hb]
    · rw [(v1 i j k hb).2.2]; simp [snap, g1, g2, g3]
  · rw [FluxCT.BArr.mk.injEq]
    refine ⟨?_, ?_, ?_⟩ <;> funext i j k <;>
      cases hb : FluxCT.inBox 0 (d.n1 - 1) 0 (d.n2 - 1) 0 d.n3 i j k
    · simp [outside 2 (i, j, k) _ hb]
    · rw [(v2 i j k hb).1]; simp [snap, g1, g2, g3]
    · simp [outside 2 (i, j, k) _ hb]
    · rw [(v2 i j k hb).2.1]; simp [snap, g1, g2, g3]
    · simp [outside 2 (i, j, k) _ hb]
    · simp [(v2 i j k hb).2.2]

/-- **C124, constrained transport.** The first loop in any schedule, then the three rewrite loops running together in any
schedule, give the fluxes of the sequential `flux_ct` (whose conservation of the divergence is C01). -/
theorem C124_flux_ct (d : FluxCT.Dims) (m m₁ m₂ : Addr → K) (s₁ s₂ : List (Fin 3 × Zone)) (h₁ : Ends (emfLoop d) m s₁ m₁)
    (h₂ : Ends (rewriteLoop d) m₁ s₂ m₂) : fluxes m₂ = FluxCT.fluxCT d (fluxes m) (emfs m) := by
  obtain ⟨he, hf⟩ := emf_phase d m m₁ s₁ h₁
  exact rewrite_phase d m₁ m₂ s₂ h₂ _ _ hf he

/-! ## Tallies -/

section Tallies

variable {I A V : Type*} [DecidableEq I] [DecidableEq A] [AddCommGroup V]

/-- Amount an access adds to `a`. -/
def gain (a : A) : Op A V → V
  | .add b f => if b = a then f 0 else 0
  | _ => 0

theorem gain_step (a : A) (op : Op A V) (s : (A → V) × (A → V)) (hw : ∀ f, op ≠ .write a f)
    (hc : ∀ f, op = .add a f → ∀ r r', f r = f r') : (act op s).2 a = s.2 a + gain a op := by
  cases op with
  | read b => simp [act, gain]
  | write b f =>
    have hb : a ≠ b := fun h => hw f (by rw [h])
    simp only [act, gain, add_zero]
    split
    · simp [hb]
    · rfl
  | add b f =>
    by_cases hb : b = a
    · subst hb
      simp [act, gain, hc f rfl s.1 0]
    · simp [act, gain, hb, Ne.symm hb]

theorem gain_runs (s : Finset I) (a : A) (sched : List I) (c c' : Conf I A V) (hs : ∀ i, i ∉ s → c.rest i = [])
    (hw : ∀ i f, Op.write a f ∉ c.rest i) (hc : ∀ i f, Op.add a f ∈ c.rest i → ∀ r r', f r = f r') (h : runs sched c = some c') :
    c'.mem a + ∑ i ∈ s, ((c'.rest i).map (gain a)).sum = c.mem a + ∑ i ∈ s, ((c.rest i).map (gain a)).sum := by
  induction sched generalizing c with
  | nil =>
    simp only [runs, Option.some.injEq] at h
    rw [h]
  | cons i sched ih =>
    simp only [runs, Option.bind_eq_some_iff] at h
    obtain ⟨c₁, h1, h2⟩ := h
    cases hr : c.rest i with
    | nil => simp [step, hr] at h1
    | cons op ops =>
      have his : i ∈ s := by
        by_contra hn
        rw [hs i hn] at hr; cases hr
      simp only [step, hr, Option.some.injEq] at h1
      have sub : ∀ j o, o ∈ c₁.rest j → o ∈ c.rest j := by
        intro j o ho
        rw [← h1] at ho
        by_cases hj : j = i
        · subst hj; simp only [Function.update_self] at ho
          rw [hr]; exact List.mem_cons_of_mem _ ho
        · simpa [hj] using ho
      rw [ih c₁ (fun j hj => List.eq_nil_iff_forall_not_mem.2 fun o ho => by
          have := sub j o ho
          rw [hs j hj] at this; cases this)
        (fun j f hf => hw j f (sub j _ hf)) (fun j f hf => hc j f (sub j _ hf)) h2]
      have e1 : c₁.mem a = c.mem a + gain a op := by
        rw [← h1]
        exact gain_step a op _ (fun f hf => hw i f (by rw [hr, hf]; exact List.mem_cons_self))
          (fun f hf => hc i f (by rw [hr, hf]; exact List.mem_cons_self))
      have e2 : ∑ j ∈ s, ((c.rest j).map (gain a)).sum = gain a op + ∑ j ∈ s, ((c₁.rest j).map (gain a)).sum := by
        rw [← Finset.add_sum_erase s _ his, ← Finset.add_sum_erase s (fun j => ((c₁.rest j).map (gain a)).sum) his, hr, ← h1]
        simp only [List.map_cons, List.sum_cons, Function.update_self]
        rw [add_assoc]
        congr 2
        refine Finset.sum_congr rfl fun j hj => ?_
        simp [Finset.ne_of_mem_erase hj]
      rw [e1, e2, add_assoc]

end Tallies

section Absorb

variable {V : Type*} [AddCommGroup V]

/-- What the packets of a list contribute to a tally of a zone (specification). -/
def contributed (packets : List (ℕ × (Tally → V))) (t : Tally) (z : ℕ) : V :=
  (packets.map fun p => if p.1 = z then p.2 t else 0).sum

theorem range_sum {W : Type*} [AddCommGroup W] {X : Type*} (l : List X) (f : X → W) :
    ∑ i ∈ Finset.range l.length, ((l[i]?).elim 0 f) = (l.map f).sum := by
  induction l with
  | nil => simp
  | cons x l ih =>
    rw [List.length_cons, Finset.sum_range_succ']
    simp only [List.getElem?_cons_succ, List.getElem?_cons_zero, Option.elim_some, ih, List.map_cons, List.sum_cons]
    rw [add_comm]

/-- **C125, indivisible additions.** For every schedule, four-force, counts and optical depths of a zone end up increased by what
the packets absorbed there contribute: none is lost and none counted twice. -/
theorem C125_tallies_partial (nG : ℕ) (packets : List (ℕ × (Tally → V))) (m m' : Tally × ℕ → V) (sched : List ℕ)
    (h : Ends (absorbLoop nG packets) m sched m') (t : Tally) (ht : t ≠ .jrad) (hG : ∀ mu, t = .radG mu → mu < nG) (z : ℕ) :
    m' (t, z) = m (t, z) + contributed packets t z := by
  obtain ⟨c, hc, hfin, rfl⟩ := h
  have key := gain_runs (Finset.range packets.length) (t, z) sched (start (absorbLoop nG packets) m) c ?_ ?_ ?_ hc
  · simp only [hfin, List.map_nil, List.sum_nil, Finset.sum_const_zero, add_zero] at key
    rw [key]
    congr 1
    rw [contributed, ← range_sum]
    refine Finset.sum_congr rfl fun i _ => ?_
    simp only [start, absorbLoop]
    cases packets[i]? with
    | none => simp
    | some p =>
      obtain ⟨zone, a⟩ := p
      simp only [absorbOps, List.map_append, List.map_map, List.sum_append, List.map_cons, List.map_nil, List.sum_cons,
        List.sum_nil, add_zero, Function.comp_def, gain, Option.elim_some, Prod.mk.injEq, zero_add]
      cases t with
      | jrad => exact absurd rfl ht
      | count => simp
      | depth => simp
      | radG mu =>
        have hmu := hG mu rfl
        simp only [Tally.radG.injEq, reduceCtorEq, false_and, if_false, add_zero]
        have : (List.map (fun x => if x = mu ∧ zone = z then a (.radG x) else 0) (List.range nG)).sum
            = ∑ x ∈ Finset.range nG, if x = mu ∧ zone = z then a (.radG x) else 0 := rfl
        rw [this]
        by_cases hz : zone = z
        · simp only [hz, and_true, if_true]
          rw [Finset.sum_ite_eq' (Finset.range nG) mu fun x => a (.radG x)]
          simp [hmu]
        · simp [hz]
  · intro i hi
    simp only [Finset.mem_range, not_lt] at hi
    simp [start, absorbLoop, List.getElem?_eq_none hi]
  · intro i f hf
    simp only [start, absorbLoop] at hf
    cases hp : packets[i]? with
    | none => simp [hp] at hf
    | some p =>
      obtain ⟨zone, a⟩ := p
      simp only [hp, absorbOps, List.mem_append, List.mem_map, List.mem_cons, List.not_mem_nil, or_false] at hf
      rcases hf with ⟨_, _, hf⟩ | hf | hf | hf | hf
      · cases hf
      · cases hf
      · injection hf with h1 _; exact ht (Prod.mk.inj h1).1
      · cases hf
      · cases hf
  · intro i f hf r r'
    simp only [start, absorbLoop] at hf
    cases hp : packets[i]? with
    | none => simp [hp] at hf
    | some p =>
      obtain ⟨zone, a⟩ := p
      simp only [hp, absorbOps, List.mem_append, List.mem_map, List.mem_cons, List.not_mem_nil, or_false] at hf
      rcases hf with ⟨_, _, hf⟩ | hf | hf | hf | hf
      · injection hf with _ h2; rw [← h2]
      · cases hf
      · cases hf
      · injection hf with _ h2; rw [h2]
      · injection hf with _ h2; rw [h2]

/-- **C125, as a user expects it**: every tally, the absorbed energy among them. -/
def FullC125 : Prop := ∀ (nG : ℕ) (packets : List (ℕ × (Tally → ℤ))) (m m' : Tally × ℕ → ℤ) (sched : List ℕ),
  Ends (absorbLoop nG packets) m sched m' → ∀ (t : Tally), (∀ mu, t = .radG mu → mu < nG) → ∀ z,
    m' (t, z) = m (t, z) + contributed packets t z

/-- Two packets absorbed in the same zone, each contributing 1. -/
def two : List (ℕ × (Tally → ℤ)) := [(5, fun _ => 1), (5, fun _ => 1)]

/-- Both load the energy before either stores it. -/
def crossing : List ℕ := [0, 1, 0, 1, 0, 1, 0, 1]

theorem crossing_ends : Ends (absorbLoop 0 two) (fun _ => 0) crossing
    (((runs crossing (start (absorbLoop 0 two) fun _ => 0)).map Conf.mem).getD fun _ => 0) := by
  refine ⟨_, rfl, fun i => ?_, rfl⟩
  match i with
  | 0 => rfl
  | 1 => rfl
  | _ + 2 => rfl

/-- Two threads absorbing packets in one zone at the same time: the absorbed energy of one is lost. -/
theorem C125_full_false : ¬ FullC125 := fun h => by
  have := h 0 two _ _ crossing crossing_ends .jrad (by simp) 5
  revert this
  decide +kernel

end Absorb

/-! ## Examples -/

/-- One zone, one variable; conserved variables the primitive ones, and recovery fails on negative values. -/
def toy : Phys ℚ where
  source _ _ _ := 0
  cons _ p := p
  inv _ u _ := u
  code _ u _ := if u 0 < 0 then 1 else 0

example : ∃ sched m', Ends (updateLoop ⟨2, 1, 1⟩ 1 toy (fun _ => 1) (1/2) .P .Ph .P) (fun a => if a.1 = .F 0 then a.2.1.1 else 7) sched m' :=
  C124_some_schedule _ (box ⟨2, 1, 1⟩) (fun z hz => by
    unfold updateLoop loopOf
    rw [if_neg]
    intro h
    exact hz (inZ_box _ _ h)) _

/-- Two zones exchanging a flux: the result of the corrector in place, whatever the schedule. -/
example (sched : List Zone) (m' : Addr → ℚ)
    (h : Ends (updateLoop ⟨2, 1, 1⟩ 1 toy (fun _ => 1) (1/2) .P .Ph .P) (fun a => if a.1 = .F 0 then a.2.1.1 else 7) sched m') :
    m' (.P, (0, 0, 0), 0) = 13/2 ∧ m' (.P, (1, 0, 0), 0) = 13/2 ∧ m' (.P, (2, 0, 0), 0) = 7 := by
  obtain ⟨h1, h2⟩ := C124_update _ _ _ _ _ _ _ _ (by simp) (by simp) (by simp) _ _ _ h
  refine ⟨?_, ?_, ?_⟩
  · rw [(h1 (0, 0, 0) (by decide)).1 0 (by decide)]
    simp [toy, updatedU, row]; norm_num
  · rw [(h1 (1, 0, 0) (by decide)).1 0 (by decide)]
    simp [toy, updatedU, row]; norm_num
  · rw [h2 _ (by decide)]
    simp

example : ∃ sched m', Ends (absorbLoop 4 two) (fun _ => 0) sched m' :=
  C124_some_schedule _ (Finset.range 2) (fun i hi => by
    simp only [Finset.mem_range, not_lt] at hi
    unfold absorbLoop
    rw [List.getElem?_eq_none (by simpa [two] using hi)]) _

example : contributed two (.radG 2) 5 = 2 ∧ contributed two .jrad 4 = 0 := by decide

end Nubhlight.Threads
